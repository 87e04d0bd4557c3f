import Verif.Spec.Unicode

/-!
# Bytes that are text in UTF-8

The characters of the log are bytes (`char`); they are given by their numbers.
-/

namespace Pluto.LogUtfSpec

open Spec

/-- The bytes are the UTF-8 encoding of some text. -/
def Utf8 (t : List Char) : Prop := ∃ text, t.map Char.toNat = (encode enc8 text).map UInt8.toNat

/-- The byte continues a character: 0x80 to 0xBF. -/
def Continues (c : Char) : Prop := 0x80 ≤ c.toNat ∧ c.toNat < 0xC0

end Pluto.LogUtfSpec
