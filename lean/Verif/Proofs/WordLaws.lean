import Verif.Proofs.Str

/-! # Lemmas about the maximal runs of a string (C170) -/

namespace Pluto.Str

open StrSpec

variable {α : Type} {gap : α → Bool}

theorem runs_gaps {g s : List α} {ps : List (List α)} (hg : ∀ c ∈ g, gap c = true)
    (h : Runs gap s ps) : Runs gap (g ++ s) ps := by
  have key : ∀ {g' : List α}, (∀ c ∈ g', gap c = true) → ∀ c ∈ g ++ g', gap c = true := by
    intro g' hg' c hc
    exact (List.mem_append.1 hc).elim (hg c) (hg' c)
  cases h with
  | none g' hg' => exact .none _ (key hg')
  | last g' p hg' hp hn =>
    rw [← List.append_assoc]
    exact .last _ p (key hg') hp hn
  | more g' p c s ps hg' hp hn hc rest =>
    have e : g ++ (g' ++ p ++ c :: s) = (g ++ g') ++ p ++ c :: s := by simp
    rw [e]
    exact .more _ p c s ps (key hg') hp hn hc rest

theorem runs_append {s t : List α} {ps qs : List (List α)} {c : α} (h : Runs gap s ps) (hc : gap c = true)
    (h' : Runs gap t qs) : Runs gap (s ++ c :: t) (ps ++ qs) := by
  induction h with
  | none g hg =>
    have e : g ++ c :: t = (g ++ [c]) ++ t := by simp
    rw [e]
    refine runs_gaps ?_ h'
    intro d hd
    rcases List.mem_append.1 hd with hd | hd
    · exact hg d hd
    · rw [List.mem_singleton.1 hd]; exact hc
  | last g p hg hp hn => exact .more g p c t qs hg hp hn hc h'
  | more g p d s ps hg hp hn hd rest ih =>
    have e : g ++ p ++ d :: s ++ c :: t = g ++ p ++ d :: (s ++ c :: t) := by simp
    rw [e]
    exact .more g p d _ _ hg hp hn hd ih

theorem runs_trailing {g s : List α} {ps : List (List α)} (h : Runs gap s ps) (hg : ∀ c ∈ g, gap c = true) :
    Runs gap (s ++ g) ps := by
  cases g with
  | nil => simpa using h
  | cons c g =>
    have := runs_append h (hg c List.mem_cons_self) (.none g fun d hd => hg d (List.mem_cons_of_mem _ hd))
    simpa using this

theorem runs_words {s : List α} {ps : List (List α)} (h : Runs gap s ps) :
    ∀ p ∈ ps, p ≠ [] ∧ ∀ c ∈ p, gap c = false := by
  induction h with
  | none g hg => intro p hp; cases hp
  | last g p hg hp hn =>
    intro q hq
    rw [List.mem_singleton.1 hq]
    exact ⟨hp, hn⟩
  | more g p d s ps hg hp hn hd rest ih =>
    intro q hq
    rcases List.mem_cons.1 hq with rfl | hq
    · exact ⟨hp, hn⟩
    · exact ih q hq

theorem runs_map {β : Type} {gap' : β → Bool} (f : α → β) {s : List α} {ps : List (List α)}
    (hf : ∀ c ∈ s, gap' (f c) = gap c) (h : Runs gap s ps) :
    Runs gap' (s.map f) (ps.map (List.map f)) := by
  have all : ∀ {l : List α} {b : Bool}, (∀ c ∈ l, gap' (f c) = gap c) → (∀ c ∈ l, gap c = b) →
      ∀ d ∈ l.map f, gap' d = b := by
    intro l b h1 h2 d hd
    obtain ⟨c, hc, rfl⟩ := List.mem_map.1 hd
    rw [h1 c hc, h2 c hc]
  induction h with
  | none g hg => exact .none _ (all hf hg)
  | last g p hg hp hn =>
    rw [List.map_append]
    exact .last _ _ (all (fun c hc => hf c (List.mem_append_left _ hc)) hg) (by simpa using hp)
      (all (fun c hc => hf c (List.mem_append_right _ hc)) hn)
  | more g p d s ps hg hp hn hd rest ih =>
    rw [List.map_append, List.map_append, List.map_cons]
    refine .more _ _ _ _ _ (all (fun c hc => hf c (by simp [hc])) hg) (by simpa using hp)
      (all (fun c hc => hf c (by simp [hc])) hn) ?_ (ih fun c hc => hf c (by simp [hc]))
    rw [hf d (by simp), hd]

/-- Pieces without gaps, joined with gaps: the runs are the pieces that are not empty. -/
theorem runs_join {sep : List α} (hs : sep ≠ []) (hg : ∀ c ∈ sep, gap c = true) (ps : List (List α))
    (h : ∀ p ∈ ps, ∀ c ∈ p, gap c = false) : Runs gap (join ps sep) (ps.filter fun p => !p.isEmpty) := by
  induction ps with
  | nil => exact .none [] (by simp)
  | cons p ps ih =>
    have hp := h p List.mem_cons_self
    have ih := ih fun q hq => h q (List.mem_cons_of_mem _ hq)
    cases ps with
    | nil =>
      rw [join_cons]
      cases p with
      | nil => exact .none [] (by simp)
      | cons x p => simpa using Runs.last [] (x :: p) (by simp) (by simp) hp
    | cons q ps =>
      have e : join (p :: q :: ps) sep = p ++ (sep ++ join (q :: ps) sep) := by
        rw [join_cons, join_cons]; simp
      rw [e]
      cases p with
      | nil => simpa using runs_gaps hg ih
      | cons x p =>
        cases sep with
        | nil => exact absurd rfl hs
        | cons d sep =>
          have ih' := runs_gaps (g := sep) (fun c hc => hg c (List.mem_cons_of_mem _ hc)) ih
          have := Runs.more [] (x :: p) d _ _ (by simp) (by simp) hp (hg d List.mem_cons_self) ih'
          simpa [List.filter_cons] using this

end Pluto.Str
