import Mathlib.Tactic.Ring
import Verif.Proofs.UtfOrder

/-! # Lemmas for C160: the sizes of converted strings, and how to tell a valid string -/

namespace Pluto.UtfProofs
open Spec Unicode
variable {α β : Type}

theorem len8 (c : Char) : (enc8 c).length =
    if c.toNat < 0x80 then 1 else if c.toNat < 0x800 then 2 else if c.toNat < 0x10000 then 3 else 4 := by
  rw [enc8_eq]
  (repeat' split) <;> rfl

theorem len16 (c : Char) : (enc16 c).length = if c.toNat < 0x10000 then 1 else 2 := by
  unfold enc16
  split <;> rfl

theorem len32 (c : Char) : (enc32 c).length = 1 := rfl

/-- An output of at most `a` units for each unit. -/
theorem size_le {enc : Char → List α} {enc' : Char → List β} {a : Nat} (hc : ∀ c, (enc' c).length ≤ a * (enc c).length)
    (hr : (enc' replacement).length ≤ a) {u : List α} {t : List Char} (h : Decodes enc u t) :
    (encode enc' t).length ≤ a * u.length := by
  induction h with
  | nil => simp [encode]
  | valid c rest text _ ih =>
    rw [encode_cons, List.length_append, List.length_append, Nat.mul_add]
    have := hc c
    omega
  | invalid x rest text _ _ ih =>
    rw [encode_cons, List.length_append, List.length_cons, Nat.mul_add]
    omega

/-- At most `a` units of input for each unit. -/
theorem size_ge {enc : Char → List α} {enc' : Char → List β} {a : Nat} (hc : ∀ c, (enc c).length ≤ a * (enc' c).length)
    (hr : 1 ≤ a * (enc' replacement).length) {u : List α} {t : List Char} (h : Decodes enc u t) :
    u.length ≤ a * (encode enc' t).length := by
  induction h with
  | nil => simp
  | valid c rest text _ ih =>
    rw [encode_cons, List.length_append, List.length_append, Nat.mul_add]
    have := hc c
    omega
  | invalid x rest text _ _ ih =>
    rw [encode_cons, List.length_append, List.length_cons, Nat.mul_add]
    omega

/-- Without a replacement the input was valid. -/
theorem valid_of_none {enc : Char → List α} {u : List α} {t : List Char} (h : Decodes enc u t) (hr : replacement ∉ t) :
    WellFormed enc u := by
  refine ⟨t, ?_⟩
  induction h with
  | nil => rfl
  | valid c rest text _ ih =>
    rw [encode_cons, ← ih (fun hm => hr (List.mem_cons_of_mem _ hm))]
  | invalid x rest text _ _ _ => exact absurd List.mem_cons_self hr

end Pluto.UtfProofs
