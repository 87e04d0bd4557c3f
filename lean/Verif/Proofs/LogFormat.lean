import Verif.Model.LogFormat
import Verif.Spec.LogFormat
import Verif.Proofs.LogRead

/-! # Lemmas on the formatting state of log streams (C129) -/

namespace Pluto.LogFormat

open LogText LogFormatSpec LogRead

variable {σ : Type}

/-- The files without the state of the stream. -/
def Files.pile (f : Files σ) : Pile := { text := f.text, aside := f.rotated }

theorem put_line {w nl : σ → Res (List Char × σ)} {t : List Char} (h : WritesLine w nl t) (f : Files σ) :
    ∃ f₁ f₂, f.put w = .ok f₁ ∧ f₁.put nl = .ok f₂ ∧ f₂.text = f.text ++ t ∧ f₂.rotated = f.rotated := by
  obtain ⟨s', s'', t₁, t₂, h1, h2, h3⟩ := h f.state
  refine ⟨{ f with text := f.text ++ t₁, state := s' }, { f with text := f.text ++ t₁ ++ t₂, state := s'' }, ?_, ?_,
    ?_, rfl⟩
  · simp only [Files.put, h1]; rfl
  · simp only [Files.put, h2]; rfl
  · simp only [List.append_assoc, h3]

theorem writeEntry_pile {w : Writers σ} {wh : Bool} {size : Nat} {header line : List Char} {log : Record}
    (hh : wh = true → WritesLine w.header w.newline header) (hn : wh = false → header = [])
    (hl : WritesLine (w.log log) w.newline line) (f : Files σ) :
    ∃ f', writeEntry w wh size f log = .ok f' ∧ f'.pile = f.pile.add size header line := by
  have key : ∀ f : Files σ, ∃ f', (do
      let f ← if wh = true ∧ f.text.length = 0 then do
          let f ← f.put w.header
          f.put w.newline
        else pure f
      let f ← f.put (w.log log)
      f.put w.newline : Res (Files σ)) = .ok f' ∧
        f'.text = (if f.text = [] then header else f.text) ++ line ∧ f'.rotated = f.rotated := by
    intro f
    by_cases hc : wh = true ∧ f.text.length = 0
    · obtain ⟨f₁, f₂, h1, h2, h3, h4⟩ := put_line (hh hc.1) f
      obtain ⟨f₃, f₄, h5, h6, h7, h8⟩ := put_line hl f₂
      have ht : f.text = [] := List.eq_nil_of_length_eq_zero hc.2
      refine ⟨f₄, ?_, ?_, by rw [h8, h4]⟩
      · rw [if_pos hc]
        simp only [h1, bind, Except.bind, h2, h5, h6]
      · rw [h7, h3, if_pos ht, ht, List.nil_append]
    · obtain ⟨f₃, f₄, h5, h6, h7, h8⟩ := put_line hl f
      refine ⟨f₄, ?_, ?_, h8⟩
      · rw [if_neg hc]
        simp only [bind, Except.bind, pure, Except.pure, h5, h6]
      · rw [h7]
        by_cases ht : f.text = []
        · have hw : wh = false := by
            cases wh with
            | false => rfl
            | true => exact absurd ⟨rfl, by rw [ht]; rfl⟩ hc
          rw [if_pos ht, hn hw, ht]
        · rw [if_neg ht]
  by_cases hr : size ≠ 0 ∧ size ≤ f.text.length
  · obtain ⟨f', h1, h2, h3⟩ := key { f with text := [], rotated := f.text :: f.rotated }
    refine ⟨f', ?_, ?_⟩
    · unfold writeEntry
      rw [if_pos hr]
      exact h1
    · rw [if_pos rfl] at h2
      unfold Pile.add Files.pile
      rw [if_pos hr, h2, h3]
  · obtain ⟨f', h1, h2, h3⟩ := key f
    refine ⟨f', ?_, ?_⟩
    · unfold writeEntry
      rw [if_neg hr]
      exact h1
    · unfold Pile.add Files.pile
      rw [if_neg hr, h2, h3]
      simp only
      by_cases ht : f.text = []
      · rw [if_pos ht, if_pos ht]
      · rw [if_neg ht, if_neg ht]

theorem writeEntries_pile {w : Writers σ} {wh : Bool} {size : Nat} {header : List Char} {line : Record → List Char}
    (hh : wh = true → WritesLine w.header w.newline header) (hn : wh = false → header = [])
    (logs : List Record) (hl : ∀ log ∈ logs, WritesLine (w.log log) w.newline (line log)) (f : Files σ) :
    ∃ f', writeEntries w wh size f logs = .ok f' ∧ f'.pile = (logs.map line).foldl (Pile.add size header) f.pile := by
  induction logs generalizing f with
  | nil => exact ⟨f, rfl, rfl⟩
  | cons log logs ih =>
    obtain ⟨f₁, h1, h2⟩ := writeEntry_pile (size := size) hh hn (hl log (by simp)) f
    obtain ⟨f₂, h3, h4⟩ := ih (fun l h => hl l (by simp [h])) f₁
    refine ⟨f₂, ?_, ?_⟩
    · simp only [writeEntries, h1, bind, Except.bind]
      exact h3
    · rw [h4, h2]; rfl

theorem writeBatches_pile {w : Writers σ} {wh : Bool} {size : Nat} {header : List Char} {line : Record → List Char}
    (hh : wh = true → WritesLine w.header w.newline header) (hn : wh = false → header = [])
    (batches : List (List Record)) (hl : ∀ log ∈ batches.flatten, WritesLine (w.log log) w.newline (line log))
    (f : Files σ) :
    ∃ f', writeBatches w wh size f batches = .ok f' ∧
      f'.pile = (batches.flatten.map line).foldl (Pile.add size header) f.pile := by
  induction batches generalizing f with
  | nil => exact ⟨f, rfl, rfl⟩
  | cons logs batches ih =>
    obtain ⟨f₁, h1, h2⟩ := writeEntries_pile (size := size) hh hn logs (fun l h => hl l (by simp [h]))
      { f with state := w.fresh }
    obtain ⟨f₂, h3, h4⟩ := ih (fun l h => hl l (by simp only [List.flatten_cons]; exact List.mem_append_right _ h)) f₁
    refine ⟨f₂, ?_, ?_⟩
    · simp only [writeBatches, h1, bind, Except.bind]
      exact h3
    · rw [h4, h2, List.flatten_cons, List.map_append, List.foldl_append]; rfl

/-! ## The default writers -/

theorem newline_text {s : Format} (h : s.width = 0) : ∃ s', newline s = .ok (['\n'], s') := by
  refine ⟨{ s with width := 0 }, ?_⟩
  simp [newline, ofOut, Format.out, Out.put, h]

theorem default_header_line (hide : Bool) :
    WritesLine (defaultHeader hide) newline (headLine hide ++ '\n' :: (ruleLine hide ++ ['\n'])) := by
  intro s
  obtain ⟨s'', h⟩ := newline_text (s := (ofOut (headerWriter hide s.out)).2) (LogRead.header_width hide s.out)
  refine ⟨_, s'', _, _, rfl, h, ?_⟩
  show (headerWriter hide s.out).text ++ ['\n'] = _
  rw [header_eq]
  simp [Format.out]

theorem default_log_line (hide : Bool) (log : Record) (h : Plain log) :
    WritesLine (defaultLog hide log) newline (lineOf hide log ++ ['\n']) := by
  intro s
  obtain ⟨o, h1, h2, h3⟩ := logWriter_eq hide s.out log h.micros h.line h.file
  obtain ⟨s'', hn⟩ := newline_text (s := (ofOut o).2) h3
  refine ⟨(ofOut o).2, s'', o.text, _, ?_, hn, ?_⟩
  · simp [defaultLog, h1, Except.map, ofOut]
  · rw [h2]; simp [Format.out]

end Pluto.LogFormat
