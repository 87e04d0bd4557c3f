import Verif.Spec.Unicode

/-!
# What it means that a function on units works on encoded text

Independent of the model: statements about encodings of characters (scalar values) as units.
-/

namespace Pluto.Spec

variable {β : Type}

/-- Wherever the units of a non-empty text occur in the units of a text, the characters occur at the
corresponding place: no match starts or ends within a character. -/
def SelfSync (enc : Char → List β) : Prop :=
  ∀ s n a b, n ≠ [] → encode enc s = a ++ encode enc n ++ b →
    ∃ s₁ s₂, s = s₁ ++ n ++ s₂ ∧ a = encode enc s₁ ∧ b = encode enc s₂

/-- The units of a character are all classified like the character. -/
def Agrees (enc : Char → List β) (onChars : Char → Bool) (onUnits : β → Bool) : Prop :=
  ∀ c, ∀ u ∈ enc c, onUnits u = onChars c

/-- Mapping the units of a character gives the units of the mapped character. -/
def Commutes (enc : Char → List β) (onChars : Char → Char) (onUnits : β → β) : Prop :=
  ∀ c, (enc c).map onUnits = enc (onChars c)

/-- The position `i` in the units of a text lies between two of its characters, or at one of its ends. -/
def Between (enc : Char → List β) (s : List Char) (i : Nat) : Prop :=
  ∃ k, i = (encode enc (s.take k)).length

end Pluto.Spec
