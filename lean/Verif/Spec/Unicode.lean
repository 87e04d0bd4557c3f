/-!
# Specification of Unicode encodings

Lean's `Char` is exactly the type of Unicode scalar values (0 .. 0x10FFFF without the surrogates
0xD800 .. 0xDFFF).  UTF-8 is Lean core's `String.utf8EncodeChar`; UTF-16 and UTF-32 are defined here
from the Unicode standard.  Nothing in this file refers to the model of the C++ code.
-/

namespace Pluto.Spec

/-- UTF-8 encoding of one scalar value (Lean core's definition, the one behind `String`). -/
def enc8 (c : Char) : List UInt8 := String.utf8EncodeChar c

/-- UTF-16 encoding of one scalar value (Unicode 15, D91). -/
def enc16 (c : Char) : List UInt16 :=
  if c.toNat < 0x10000 then [UInt16.ofNat c.toNat]
  else [UInt16.ofNat (0xD800 + (c.toNat - 0x10000) / 0x400),
        UInt16.ofNat (0xDC00 + (c.toNat - 0x10000) % 0x400)]

/-- UTF-32 encoding of one scalar value (Unicode 15, D90). -/
def enc32 (c : Char) : List UInt32 := [c.val]

/-- The encoding form of a text: the concatenation of the encodings of its scalar values. -/
def encode (enc : Char → List α) (text : List Char) : List α := text.flatMap enc

/-- A unit sequence is well-formed if it is the encoding of some text. -/
def WellFormed (enc : Char → List α) (units : List α) : Prop := ∃ text, units = encode enc text

/-- The replacement character. -/
def replacement : Char := Char.ofNat 0xFFFD

/-- Decoding with replacement: `Decodes enc units text` holds if `text` is obtained by repeatedly
taking off the encoding of a scalar value from the front of `units` or, if `units` does not start with the
encoding of any scalar value, taking off one unit and producing U+FFFD. -/
inductive Decodes (enc : Char → List α) : List α → List Char → Prop
  | nil : Decodes enc [] []
  | valid (c : Char) (rest : List α) (text : List Char) :
      Decodes enc rest text → Decodes enc (enc c ++ rest) (c :: text)
  | invalid (unit : α) (rest : List α) (text : List Char) :
      (∀ c, ¬ enc c <+: unit :: rest) →
      Decodes enc rest text → Decodes enc (unit :: rest) (replacement :: text)

end Pluto.Spec
