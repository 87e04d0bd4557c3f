import Verif.Model.Res

/-!
# Lines in files

How lines are distributed to files: a file that has the rotation size or more is put aside before the next line; a new
file starts with the header. Independent of the model.
-/

namespace Pluto.LogFormatSpec

/-- The file being written and those put aside, newest first. -/
structure Pile where
  text : List Char := []
  aside : List (List Char) := []
deriving DecidableEq, Repr

/-- One more line. -/
def Pile.add (size : Nat) (header : List Char) (p : Pile) (line : List Char) : Pile :=
  if size ≠ 0 ∧ size ≤ p.text.length then { text := header ++ line, aside := p.text :: p.aside }
  else if p.text = [] then { p with text := header ++ line }
  else { p with text := p.text ++ line }

/-- What `w` writes and the line break `nl` after it are `t`, whatever state the stream is in. -/
def WritesLine {σ : Type} (w nl : σ → Res (List Char × σ)) (t : List Char) : Prop :=
  ∀ s, ∃ s' s'' t₁ t₂, w s = .ok (t₁, s') ∧ nl s' = .ok (t₂, s'') ∧ t₁ ++ t₂ = t

end Pluto.LogFormatSpec
