import Verif.Model.LogBuf
import Mathlib.Data.List.Nodup

/-! # The linked list of a log buffer -/

namespace Pluto.LogBuf
variable {α : Type}

/-- The links from `a` through the given nodes to the end node, in both directions. -/
def Links (h : Heap α) : Nat → List Nat → Prop
  | a, [] => h.next a = 0 ∧ h.prev 0 = a
  | a, n :: ns => h.next a = n ∧ h.prev n = a ∧ Links h n ns

theorem links_congr {h h' : Heap α} {a : Nat} {ns : List Nat} (hn : ∀ x ∈ a :: ns, h'.next x = h.next x)
    (hp : ∀ x ∈ ns, h'.prev x = h.prev x) (h0 : h'.prev 0 = h.prev 0) (hl : Links h a ns) : Links h' a ns := by
  induction ns generalizing a with
  | nil => exact ⟨by rw [hn a (by simp)]; exact hl.1, by rw [h0]; exact hl.2⟩
  | cons n ns ih =>
    refine ⟨by rw [hn a (by simp)]; exact hl.1, by rw [hp n (by simp)]; exact hl.2.1, ?_⟩
    exact ih (fun x hx => hn x (List.mem_cons_of_mem _ hx)) (fun x hx => hp x (List.mem_cons_of_mem _ hx)) hl.2.2

theorem links_next {h : Heap α} {a : Nat} {ns : List Nat} (hl : Links h a ns) : h.next a = ns.headD 0 := by
  cases ns with
  | nil => exact hl.1
  | cons n ns => exact hl.1

theorem links_drop {h : Heap α} {a : Nat} {xs ys : List Nat} {r : Nat} (hl : Links h a (xs ++ r :: ys)) :
    Links h r ys := by
  induction xs generalizing a with
  | nil => exact hl.2.2
  | cons x xs ih => exact ih hl.2.2

theorem links_prev {h : Heap α} {a : Nat} {ys : List Nat} (hl : Links h a ys) : h.prev (ys.headD 0) = a := by
  cases ys with
  | nil => exact hl.2
  | cons y ys => exact hl.2.1

theorem links_prev_mem {h : Heap α} {a d : Nat} {xs ys : List Nat} (hl : Links h a (xs ++ d :: ys)) :
    h.prev d ∈ a :: xs := by
  induction xs generalizing a with
  | nil => rw [hl.2.1]; simp
  | cons x xs ih => exact List.mem_cons_of_mem _ (ih hl.2.2)

theorem links_unhook {h : Heap α} {a d : Nat} {xs ys : List Nat} (hl : Links h a (xs ++ d :: ys))
    (hnd : (a :: (xs ++ d :: ys)).Nodup) (h0 : 0 ∉ xs ++ d :: ys) : Links (unhook h d) a (xs ++ ys) := by
  have hnext : h.next d = ys.headD 0 := links_next (links_drop hl)
  induction xs generalizing a with
  | nil =>
    obtain ⟨h1, h2, h3⟩ := hl
    cases ys with
    | nil =>
      simp only [List.headD_nil] at hnext
      refine ⟨?_, ?_⟩
      · show (if a = h.prev d then h.next d else h.next a) = 0
        rw [if_pos h2.symm]; exact hnext
      · show (if 0 = h.next d then h.prev d else h.prev 0) = a
        rw [if_pos hnext.symm, h2]
    | cons y ys =>
      simp only [List.headD_cons] at hnext
      refine ⟨?_, ?_, ?_⟩
      · show (if a = h.prev d then h.next d else h.next a) = y
        rw [if_pos h2.symm]; exact hnext
      · show (if y = h.next d then h.prev d else h.prev y) = a
        rw [if_pos hnext.symm, h2]
      · simp only [List.nil_append, List.nodup_cons, List.mem_cons, not_or] at hnd h0
        refine links_congr (h := h) ?_ ?_ ?_ h3.2.2
        · intro x hx
          show (if x = h.prev d then h.next d else h.next x) = h.next x
          rw [if_neg]
          rintro rfl
          rw [h2] at hx
          rcases List.mem_cons.1 hx with h4 | h4
          · exact hnd.1.2.1 h4
          · exact hnd.1.2.2 h4
        · intro x hx
          show (if x = h.next d then h.prev d else h.prev x) = h.prev x
          rw [if_neg]
          rintro rfl
          rw [hnext] at hx
          exact hnd.2.2.1 hx
        · show (if 0 = h.next d then h.prev d else h.prev 0) = h.prev 0
          rw [if_neg]
          rw [hnext]
          exact h0.2.1
  | cons x xs ih =>
    obtain ⟨h1, h2, h3⟩ := hl
    have hm := links_prev_mem h3
    have hnd' := hnd
    simp only [List.cons_append, List.nodup_cons, List.mem_cons, List.mem_append, not_or] at hnd h0
    refine ⟨?_, ?_, ih h3 ?_ ?_ ⟩
    · show (if a = h.prev d then h.next d else h.next a) = x
      rw [if_neg]
      · exact h1
      · rintro rfl
        rcases List.mem_cons.1 hm with h4 | h4
        · exact hnd.1.1 h4
        · exact hnd.1.2.1 h4
    · show (if x = h.next d then h.prev d else h.prev x) = a
      rw [if_neg]
      · exact h2
      · rw [hnext]
        cases ys with
        | nil =>
          intro h4
          exact h0.1 h4.symm
        | cons y ys =>
          intro h4
          exact hnd.2.1.2.2 (by rw [h4]; simp)
    · exact (List.nodup_cons.1 hnd').2
    · simp only [List.mem_append, List.mem_cons, not_or]
      exact ⟨h0.2.1, h0.2.2⟩

/-- The heap is a list with these nodes. -/
structure Holds (h : Heap α) (L : List (Nat × α)) : Prop where
  links : Links h 0 (L.map (·.1))
  nodup : (L.map (·.1)).Nodup
  zero : 0 ∉ L.map (·.1)
  data : ∀ p ∈ L, h.data p.1 = some p.2
  nodata : h.data 0 = none
  size : h.size = L.length
  pos : 0 < h.fresh
  fresh : ∀ p ∈ L, p.1 < h.fresh

theorem holds_empty : Holds (Heap.empty : Heap α) [] :=
  ⟨⟨rfl, rfl⟩, List.nodup_nil, by simp, by simp, rfl, rfl, Nat.one_pos, by simp⟩

theorem holds_emplace {h : Heap α} {L : List (Nat × α)} (hh : Holds h L) (a : α) :
    Holds (emplace h a) ((h.fresh, a) :: L) := by
  have hf : ∀ p ∈ L, p.1 ≠ h.fresh := fun p hp he => by have := hh.fresh p hp; omega
  have hfm : h.fresh ∉ L.map (·.1) := by
    intro hm
    obtain ⟨p, hp, he⟩ := List.mem_map.1 hm
    exact hf p hp he
  have hpos := hh.pos
  have hnext : ∀ x, (emplace h a).next x = if x = 0 then h.fresh else if x = h.fresh then h.next 0 else h.next x :=
    fun x => rfl
  have hprev : ∀ x, (emplace h a).prev x = if x = h.next 0 then h.fresh else if x = h.fresh then 0 else h.prev x :=
    fun x => rfl
  have hdata : ∀ x, (emplace h a).data x = if x = h.fresh then some a else h.data x := fun x => rfl
  have h0 : h.next 0 = (L.map (·.1)).headD 0 := links_next hh.links
  have hne : h.next 0 ≠ h.fresh := by
    rw [h0]
    cases L with
    | nil => simp; omega
    | cons p L => simpa using hf p (by simp)
  refine ⟨⟨?_, ?_, ?_⟩, ?_, ?_, ?_, ?_, ?_, ?_, ?_⟩
  · rw [hnext, if_pos rfl]
  · rw [hprev, if_neg (Ne.symm hne), if_pos rfl]
  · have hl := hh.links
    cases L with
    | nil =>
      simp only [List.map_nil, List.headD_nil] at h0 ⊢
      refine ⟨?_, ?_⟩
      · rw [hnext, if_neg (by omega), if_pos rfl, h0]
      · rw [hprev, if_pos h0.symm]
    | cons p L =>
      have hz := hh.zero
      have hd := hh.nodup
      simp only [List.map_cons, List.headD_cons] at h0 hl hfm hz hd ⊢
      simp only [List.mem_cons, not_or] at hfm hz
      refine ⟨?_, ?_, ?_⟩
      · rw [hnext, if_neg (by omega), if_pos rfl, h0]
      · rw [hprev, if_pos h0.symm]
      · refine links_congr (h := h) ?_ ?_ ?_ hl.2.2
        · intro x hx
          rw [hnext, if_neg, if_neg]
          · rintro rfl
            exact (List.mem_cons.1 hx).elim hfm.1 hfm.2
          · rintro rfl
            exact (List.mem_cons.1 hx).elim hz.1 hz.2
        · intro x hx
          rw [hprev, if_neg, if_neg]
          · rintro rfl; exact hfm.2 hx
          · rintro rfl
            rw [h0] at hx
            exact (List.nodup_cons.1 hd).1 hx
        · rw [hprev, if_neg, if_neg (by omega)]
          rw [h0]; exact hz.1
  · simp only [List.map_cons, List.nodup_cons]
    exact ⟨hfm, hh.nodup⟩
  · simp only [List.map_cons, List.mem_cons, not_or]
    exact ⟨by omega, hh.zero⟩
  · intro p hp
    rcases List.mem_cons.1 hp with rfl | hp
    · rw [hdata, if_pos rfl]
    · rw [hdata, if_neg (hf p hp), hh.data p hp]
  · rw [hdata, if_neg (by omega), hh.nodata]
  · show h.size + 1 = _
    rw [hh.size]; rfl
  · show 0 < h.fresh + 1
    omega
  · intro p hp
    show p.1 < h.fresh + 1
    rcases List.mem_cons.1 hp with rfl | hp
    · show h.fresh < _; omega
    · have := hh.fresh p hp; omega

theorem holds_unhook {h : Heap α} {M D : List (Nat × α)} {d : Nat × α} (hh : Holds h (M ++ d :: D)) :
    Holds (unhook h d.1) (M ++ D) := by
  have hl := hh.links
  have hn := hh.nodup
  have hz := hh.zero
  rw [List.map_append, List.map_cons] at hl hn hz
  have hdm : d.1 ∉ (M ++ D).map (·.1) := by
    rw [List.nodup_middle, List.nodup_cons, ← List.map_append] at hn
    exact hn.1
  refine ⟨?_, ?_, ?_, ?_, ?_, ?_, hh.pos, ?_⟩
  · rw [List.map_append]
    exact links_unhook hl (List.nodup_cons.2 ⟨hz, hn⟩) hz
  · rw [List.nodup_middle, List.nodup_cons, ← List.map_append] at hn
    exact hn.2
  · rw [List.map_append]
    intro hx
    apply hz
    rcases List.mem_append.1 hx with hx | hx
    · exact List.mem_append_left _ hx
    · exact List.mem_append_right _ (List.mem_cons_of_mem _ hx)
  · intro p hp
    show (if p.1 = d.1 then none else h.data p.1) = _
    rw [if_neg]
    · apply hh.data
      rcases List.mem_append.1 hp with hx | hx
      · exact List.mem_append_left _ hx
      · exact List.mem_append_right _ (List.mem_cons_of_mem _ hx)
    · intro he
      exact hdm (List.mem_map.2 ⟨p, hp, he⟩)
  · show (if 0 = d.1 then none else h.data 0) = none
    rw [hh.nodata]; simp
  · show h.size - 1 = _
    rw [hh.size]; simp
  · intro p hp
    apply hh.fresh
    rcases List.mem_append.1 hp with hx | hx
    · exact List.mem_append_left _ hx
    · exact List.mem_append_right _ (List.mem_cons_of_mem _ hx)

theorem erase_tail {h : Heap α} {M D : List (Nat × α)} (hh : Holds h (M ++ D)) (fuel : Nat) (hf : D.length ≤ fuel) :
    ∃ h', eraseFrom fuel h ((D.map (·.1)).headD 0) = some h' ∧ Holds h' M := by
  induction D generalizing h fuel with
  | nil =>
    refine ⟨h, ?_, by simpa using hh⟩
    cases fuel <;> simp [eraseFrom]
  | cons d D ih =>
    cases fuel with
    | zero => simp at hf
    | succ fuel =>
      have hz := hh.zero
      rw [List.map_append, List.map_cons] at hz
      have hd0 : d.1 ≠ 0 := by
        intro he; apply hz; rw [← he]; simp
      have hd := hh.data d (by simp)
      have hn : h.next d.1 = (D.map (·.1)).headD 0 := by
        have hl := hh.links
        rw [List.map_append, List.map_cons] at hl
        exact links_next (links_drop hl)
      obtain ⟨h', h1, h2⟩ := ih (holds_unhook hh) fuel (by simpa using hf)
      refine ⟨h', ?_, h2⟩
      simp only [eraseFrom, List.map_cons, List.headD_cons, hd0, if_false, hd, Option.isNone_some, Bool.false_eq_true, hn]
      exact h1

theorem walk_eq {h : Heap α} {L : List (Nat × α)} {a : Nat} (hl : Links h a (L.map (·.1)))
    (hd : ∀ p ∈ L, h.data p.1 = some p.2) : walk h L.length (h.next a) = L.map (·.2) := by
  induction L generalizing a with
  | nil => rfl
  | cons p L ih =>
    simp only [List.map_cons] at hl
    obtain ⟨h1, h2, h3⟩ := hl
    simp only [List.length_cons, walk, h1, hd p (by simp), List.map_cons]
    rw [ih h3 (fun q hq => hd q (List.mem_cons_of_mem _ hq))]

theorem entries_eq {h : Heap α} {L : List (Nat × α)} (hh : Holds h L) : h.entries = L.map (·.2) := by
  unfold Heap.entries
  rw [hh.size]
  exact walk_eq hh.links hh.data

/-! ### Reading without the mutex -/

/-- The cells other threads may write while the nodes `ids` are being read. -/
def Safe (ids : List Nat) : Cell → Prop
  | .next _ => True
  | .size => True
  | .data n => n ∉ ids
  | .prev n => n ≠ 0 ∧ n ∉ ids.tail

/-- The cells the reader of the nodes `ids` reads. -/
def Read (ids : List Nat) : Cell → Prop
  | .next _ => False
  | .size => False
  | .data n => n ∈ ids
  | .prev n => n = 0 ∨ n ∈ ids.tail

theorem safe_not_read {ids : List Nat} {c : Cell} (h : Safe ids c) : ¬ Read ids c := by
  cases c with
  | next n => exact fun h => h
  | size => exact fun h => h
  | data n => exact h
  | prev n => rintro (h1 | h1); exacts [h.1 h1, h.2 h1]

theorem fold_prev {h : Heap α} {ws : List (Write α)} {x : Nat} (hw : ∀ w ∈ ws, w.cell ≠ .prev x) :
    (ws.foldl Heap.write h).prev x = h.prev x := by
  induction ws generalizing h with
  | nil => rfl
  | cons w ws ih =>
    rw [List.foldl_cons, ih (fun w hw' => hw w (List.mem_cons_of_mem _ hw'))]
    have := hw w (by simp)
    cases w with
    | prev n v =>
      have : x ≠ n := by rintro rfl; exact this rfl
      simp [Heap.write, this]
    | next _ _ => rfl
    | data _ _ => rfl
    | size _ => rfl

theorem fold_data {h : Heap α} {ws : List (Write α)} {x : Nat} (hw : ∀ w ∈ ws, w.cell ≠ .data x) :
    (ws.foldl Heap.write h).data x = h.data x := by
  induction ws generalizing h with
  | nil => rfl
  | cons w ws ih =>
    rw [List.foldl_cons, ih (fun w hw' => hw w (List.mem_cons_of_mem _ hw'))]
    have := hw w (by simp)
    cases w with
    | data n v =>
      have : x ≠ n := by rintro rfl; exact this rfl
      simp [Heap.write, this]
    | next _ _ => rfl
    | prev _ _ => rfl
    | size _ => rfl

/-- What holds while the logging thread reads the nodes `R ++ D`, has read `D`, and `N` was added. -/
structure Reading (s : State α) (N R D : List (Nat × α)) : Prop where
  holds : Holds (s.pending.foldl Heap.write s.heap) (N ++ (R ++ D))
  pending : ∀ w ∈ s.pending, Safe ((R ++ D).map (·.1)) w.cell
  writes : ∀ c ∈ s.writes, Safe ((R ++ D).map (·.1)) c
  reads : ∀ c ∈ s.reads, Read ((R ++ D).map (·.1)) c
  it : s.it = (D.map (·.1)).headD 0
  out : s.out = (D.map (·.2)).reverse
  ub : s.ub = false
  first : s.first = ((R ++ D).map (·.1)).headD 0

theorem emplace_safe {h : Heap α} {N l : List (Nat × α)} (hh : Holds h (N ++ l)) (hl : l ≠ []) (a : α) :
    ∀ w ∈ emplaceFront h a, Safe (l.map (·.1)) w.cell := by
  have hf : h.fresh ∉ l.map (·.1) := by
    intro hm
    obtain ⟨p, hp, he⟩ := List.mem_map.1 hm
    have := hh.fresh p (List.mem_append_right _ hp)
    omega
  have hpos := hh.pos
  have h0 : h.next 0 = ((N ++ l).map (·.1)).headD 0 := links_next hh.links
  have hn := hh.nodup
  have hz := hh.zero
  intro w hw
  simp only [emplaceFront, List.mem_cons, List.not_mem_nil, or_false] at hw
  rcases hw with rfl | rfl | rfl | rfl | rfl | rfl
  · exact hf
  · trivial
  · exact ⟨by show h.fresh ≠ 0; omega, fun hx => hf (List.mem_of_mem_tail hx)⟩
  · show h.next 0 ≠ 0 ∧ h.next 0 ∉ (l.map (·.1)).tail
    rw [h0]
    cases N with
    | nil =>
      cases l with
      | nil => exact absurd rfl hl
      | cons p l =>
        simp only [List.nil_append, List.map_cons, List.headD_cons, List.tail_cons, List.nodup_cons, List.mem_cons,
          not_or] at hn hz ⊢
        exact ⟨Ne.symm hz.1, hn.1⟩
    | cons p N =>
      simp only [List.cons_append, List.map_cons, List.headD_cons, List.nodup_cons, List.mem_cons, List.map_append,
        List.mem_append, not_or] at hn hz ⊢
      exact ⟨Ne.symm hz.1, fun hx => hn.1.2 (List.mem_of_mem_tail hx)⟩
  · trivial
  · trivial

theorem reading_step {s s' : State α} {N R D : List (Nat × α)} {e : Event α} (h : Reading s N R D) (hl : R ++ D ≠ [])
    (hs : step s e = some s') : ∃ N' R' D', Reading s' N' R' D' ∧ R' ++ D' = R ++ D ∧
      N'.map (·.2) = added [e] ++ N.map (·.2) := by
  cases e with
  | call a =>
    unfold step at hs
    simp only at hs
    split at hs
    · rename_i hp
      cases hs
      have hh := h.holds
      rw [hp] at hh
      refine ⟨(s.heap.fresh, a) :: N, R, D, ⟨?_, emplace_safe hh hl a, h.writes, h.reads, h.it, h.out, h.ub, h.first⟩,
        rfl, rfl⟩
      exact holds_emplace hh a
    · cases hs
  | write =>
    unfold step at hs
    simp only at hs
    split at hs
    · cases hs
    · rename_i w ws hp
      cases hs
      have hh := h.holds
      rw [hp] at hh
      have hpen := h.pending
      rw [hp] at hpen
      refine ⟨N, R, D, ⟨hh, fun w hw => hpen w (List.mem_cons_of_mem _ hw), ?_, h.reads, h.it, h.out, h.ub, h.first⟩,
        rfl, rfl⟩
      intro c hc
      rcases List.mem_cons.1 hc with rfl | hc
      · exact hpen w (by simp)
      · exact h.writes c hc
  | read =>
    unfold step at hs
    simp only at hs
    split at hs
    · cases hs
    · rename_i hne
      rcases List.eq_nil_or_concat' R with rfl | ⟨R, r, rfl⟩
      · exact absurd (h.it.trans (by simpa using h.first.symm)) hne
      · have hh := h.holds
        have hl' : Links (s.pending.foldl Heap.write s.heap) 0
            ((N ++ R).map (·.1) ++ r.1 :: D.map (·.1)) := by
          have := hh.links
          simpa [List.append_assoc] using this
        have hrd : Read ((R ++ [r] ++ D).map (·.1)) (.prev s.it) := by
          rw [h.it]
          cases D with
          | nil => exact .inl rfl
          | cons d D =>
            refine .inr ?_
            simp only [List.map_cons, List.headD_cons]
            cases R with
            | nil => simp
            | cons x R => simp
        have hprev : s.heap.prev s.it = r.1 := by
          rw [← fold_prev (ws := s.pending), h.it]
          · exact links_prev (links_drop hl')
          · intro w hw hc
            exact safe_not_read (h.pending w hw) (by rw [hc]; exact hrd)
        have hrd2 : Read ((R ++ [r] ++ D).map (·.1)) (.data r.1) := by
          show r.1 ∈ _
          simp
        have hdata : s.heap.data r.1 = some r.2 := by
          rw [← fold_data (ws := s.pending)]
          · exact hh.data r (by simp)
          · intro w hw hc
            exact safe_not_read (h.pending w hw) (by rw [hc]; exact hrd2)
        rw [hprev] at hs
        rw [hdata] at hs
        simp only [Option.some.injEq] at hs
        subst hs
        refine ⟨N, R, r :: D, ?_, by simp, rfl⟩
        have e : R ++ r :: D = R ++ [r] ++ D := by simp
        refine ⟨?_, ?_, ?_, ?_, ?_, ?_, h.ub, ?_⟩
        · rw [e]; exact h.holds
        · rw [e]; exact h.pending
        · rw [e]; exact h.writes
        · rw [e]
          intro c hc
          rcases List.mem_cons.1 hc with rfl | hc
          · exact hrd
          · rcases List.mem_cons.1 hc with rfl | hc
            · exact hrd2
            · exact h.reads c hc
        · rfl
        · simp [h.out]
        · rw [e]; exact h.first

theorem added_cons (e : Event α) (es : List (Event α)) : added (e :: es) = added es ++ added [e] := by
  cases e <;> simp [added]

theorem reading_run {es : List (Event α)} {s s' : State α} {N R D : List (Nat × α)} (h : Reading s N R D)
    (hl : R ++ D ≠ []) (hs : run es s = some s') : ∃ N' R' D', Reading s' N' R' D' ∧ R' ++ D' = R ++ D ∧
      N'.map (·.2) = added es ++ N.map (·.2) := by
  induction es generalizing s N R D with
  | nil =>
    cases hs
    exact ⟨N, R, D, h, rfl, rfl⟩
  | cons e es ih =>
    unfold run at hs
    cases h1 : step s e with
    | none => rw [h1] at hs; cases hs
    | some s1 =>
      rw [h1] at hs
      obtain ⟨N1, R1, D1, h2, h3, h4⟩ := reading_step h hl h1
      obtain ⟨N2, R2, D2, h5, h6, h7⟩ := ih h2 (by rw [h3]; exact hl) hs
      refine ⟨N2, R2, D2, h5, h6.trans h3, ?_⟩
      rw [h7, h4, added_cons e es, List.append_assoc]

theorem reading_start {h : Heap α} {L : List (Nat × α)} (hh : Holds h L) : Reading (start h) [] L [] := by
  refine ⟨by simpa [start] using hh, by simp [start], by simp [start], by simp [start], rfl, rfl, rfl, ?_⟩
  simpa [start] using links_next hh.links

/-- What holds after any steps from a list whose entries are `l`. -/
theorem session {h : Heap α} {L : List (Nat × α)} (hh : Holds h L) (hl : L ≠ []) {es : List (Event α)} {s : State α}
    (hs : run es (start h) = some s) : ∃ N R D, Reading s N R D ∧ R ++ D = L ∧ N.map (·.2) = added es := by
  obtain ⟨N, R, D, h1, h2, h3⟩ := reading_run (reading_start hh) (by simpa using hl) hs
  exact ⟨N, R, D, h1, by simpa using h2, by simpa using h3⟩

theorem session_erase {h : Heap α} {L : List (Nat × α)} (hh : Holds h L) (hl : L ≠ []) {es : List (Event α)} {s : State α}
    (hs : run es (start h) = some s) (hp : s.pending = []) :
    ∃ h' M, eraseFrom s.heap.size s.heap s.it = some h' ∧ Holds h' M ∧
      M.map (·.2) = added es ++ (L.map (·.2)).take (L.length - s.out.length) := by
  obtain ⟨N, R, D, h1, h2, h3⟩ := session hh hl hs
  have h4 := h1.holds
  rw [hp] at h4
  have h4 : Holds s.heap (N ++ R ++ D) := by simpa using h4
  obtain ⟨h', h5, h6⟩ := erase_tail h4 s.heap.size (by rw [h4.size]; simp; omega)
  refine ⟨h', N ++ R, by rw [h1.it]; exact h5, h6, ?_⟩
  rw [List.map_append, h3, h1.out, ← h2]
  simp

theorem life_holds {h : Heap α} {l : List α} (hl : Life h l) : ∃ L, Holds h L ∧ L.map (·.2) = l := by
  induction hl with
  | new => exact ⟨[], holds_empty, rfl⟩
  | @add h l a _ ih =>
    obtain ⟨L, h1, h2⟩ := ih
    exact ⟨_, holds_emplace h1 a, by simp [h2]⟩
  | @flush h h' l es s _ hne hs hp he ih =>
    obtain ⟨L, h1, h2⟩ := ih
    have hL : L ≠ [] := by rintro rfl; exact hne h2.symm
    obtain ⟨h'', M, h3, h4, h5⟩ := session_erase h1 hL hs hp
    rw [he] at h3
    cases h3
    refine ⟨M, h4, ?_⟩
    rw [h5, h2, ← h2, List.length_map]

end Pluto.LogBuf
