import Verif.Spec.Unicode
import Verif.Model.Unicode

/-! # Lemmas about the Unicode converters -/

namespace Pluto.Unicode
open Pluto.Spec

/-! ## Bit operations as arithmetic -/

theorem and_7 (x : Nat) : x &&& 0x7 = x % 8 := Nat.and_two_pow_sub_one_eq_mod x 3
theorem and_F (x : Nat) : x &&& 0xF = x % 16 := Nat.and_two_pow_sub_one_eq_mod x 4
theorem and_1F (x : Nat) : x &&& 0x1F = x % 32 := Nat.and_two_pow_sub_one_eq_mod x 5
theorem and_3F (x : Nat) : x &&& 0x3F = x % 64 := Nat.and_two_pow_sub_one_eq_mod x 6
theorem and_3FF (x : Nat) : x &&& 0x3FF = x % 1024 := Nat.and_two_pow_sub_one_eq_mod x 10

theorem cp2 (a b : Nat) : ((a &&& 0x1F) <<< 6) ||| (b &&& 0x3F) = (a % 32) * 64 + b % 64 := by
  rw [and_1F, and_3F, ← Nat.shiftLeft_add_eq_or_of_lt (by omega), Nat.shiftLeft_eq]

theorem cp3 (a b c : Nat) : ((a &&& 0xF) <<< 12) ||| ((b &&& 0x3F) <<< 6) ||| (c &&& 0x3F) =
    (a % 16) * 4096 + (b % 64) * 64 + c % 64 := by
  have h1 : ((a &&& 0xF) <<< 12) ||| ((b &&& 0x3F) <<< 6) = ((a % 16) * 64 + b % 64) <<< 6 := by
    rw [and_F, and_3F, ← Nat.shiftLeft_add_eq_or_of_lt (by rw [Nat.shiftLeft_eq]; omega)]
    simp only [Nat.shiftLeft_eq]; omega
  rw [h1, and_3F, ← Nat.shiftLeft_add_eq_or_of_lt (by omega), Nat.shiftLeft_eq]; omega

theorem cp4 (a b c d : Nat) :
    ((a &&& 0x7) <<< 18) ||| ((b &&& 0x3F) <<< 12) ||| ((c &&& 0x3F) <<< 6) ||| (d &&& 0x3F) =
    (a % 8) * 262144 + (b % 64) * 4096 + (c % 64) * 64 + d % 64 := by
  have h1 : ((a &&& 0x7) <<< 18) ||| ((b &&& 0x3F) <<< 12) = ((a % 8) * 64 + b % 64) <<< 12 := by
    rw [and_7, and_3F, ← Nat.shiftLeft_add_eq_or_of_lt (by rw [Nat.shiftLeft_eq]; omega)]
    simp only [Nat.shiftLeft_eq]; omega
  have h2 : (((a % 8) * 64 + b % 64) <<< 12) ||| ((c &&& 0x3F) <<< 6) =
      ((a % 8) * 4096 + (b % 64) * 64 + c % 64) <<< 6 := by
    rw [and_3F, ← Nat.shiftLeft_add_eq_or_of_lt (by rw [Nat.shiftLeft_eq]; omega)]
    simp only [Nat.shiftLeft_eq]; omega
  rw [h1, h2, and_3F, ← Nat.shiftLeft_add_eq_or_of_lt (by omega), Nat.shiftLeft_eq]; omega

theorem surr (a b : Nat) : ((a &&& 0x3FF) <<< 10) ||| (b &&& 0x3FF) = (a % 1024) * 1024 + b % 1024 := by
  rw [and_3FF, and_3FF, ← Nat.shiftLeft_add_eq_or_of_lt (by omega), Nat.shiftLeft_eq]

theorem or_80 (x : Nat) : 0x80 ||| (x &&& 0x3F) = 0x80 + x % 64 := by
  rw [and_3F]
  exact (Nat.shiftLeft_add_eq_or_of_lt (a := 2) (i := 6) (b := x % 64) (by omega)).symm

theorem or_C0 (x : Nat) (h : x < 0x800) : 0xC0 ||| (x >>> 6) = 0xC0 + x / 64 := by
  rw [Nat.shiftRight_eq_div_pow]
  exact (Nat.shiftLeft_add_eq_or_of_lt (a := 6) (i := 5) (b := x / 64) (by omega)).symm

theorem or_E0 (x : Nat) (h : x < 0x10000) : 0xE0 ||| (x >>> 12) = 0xE0 + x / 4096 := by
  rw [Nat.shiftRight_eq_div_pow]
  exact (Nat.shiftLeft_add_eq_or_of_lt (a := 14) (i := 4) (b := x / 4096) (by omega)).symm

theorem or_F0 (x : Nat) (h : x < 0x110000) : 0xF0 ||| (x >>> 18) = 0xF0 + x / 262144 := by
  rw [Nat.shiftRight_eq_div_pow]
  exact (Nat.shiftLeft_add_eq_or_of_lt (a := 30) (i := 3) (b := x / 262144) (by omega)).symm

/-! ## Characters -/

theorem char_valid (c : Char) : c.toNat < 0xD800 ∨ (0xDFFF < c.toNat ∧ c.toNat < 0x110000) := by
  have := c.valid
  simp only [UInt32.isValidChar, Nat.isValidChar] at this
  exact this

theorem char_toNat_ofNat {n : Nat} (h : n < 0xD800 ∨ (0xDFFF < n ∧ n < 0x110000)) :
    (Char.ofNat n).toNat = n := by
  have h' : n.isValidChar := h
  simp [Char.ofNat, h', Char.ofNatAux, Char.toNat]

theorem char_ext_toNat {c d : Char} (h : c.toNat = d.toNat) : c = d :=
  Char.ext (UInt32.toNat_inj.1 h)

theorem enc8_eq (c : Char) : enc8 c =
    if c.toNat < 0x80 then [UInt8.ofNat c.toNat]
    else if c.toNat < 0x800 then [UInt8.ofNat (0xC0 + c.toNat / 64), UInt8.ofNat (0x80 + c.toNat % 64)]
    else if c.toNat < 0x10000 then
      [UInt8.ofNat (0xE0 + c.toNat / 4096), UInt8.ofNat (0x80 + c.toNat / 64 % 64), UInt8.ofNat (0x80 + c.toNat % 64)]
    else [UInt8.ofNat (0xF0 + c.toNat / 262144), UInt8.ofNat (0x80 + c.toNat / 4096 % 64),
      UInt8.ofNat (0x80 + c.toNat / 64 % 64), UInt8.ofNat (0x80 + c.toNat % 64)] := by
  have hv := char_valid c
  have e : c.val.toNat = c.toNat := rfl
  simp only [enc8, String.utf8EncodeChar, e]
  by_cases h1 : c.toNat < 0x80
  · rw [if_pos h1, if_pos (by omega)]
  by_cases h2 : c.toNat < 0x800
  · rw [if_neg h1, if_neg (by omega), if_pos h2, if_pos (by omega),
      Nat.mod_eq_of_lt (by omega : c.toNat / 64 < 32), Nat.add_comm 192, Nat.add_comm 128]
  by_cases h3 : c.toNat < 0x10000
  · rw [if_neg h1, if_neg (by omega), if_neg h2, if_neg (by omega), if_pos h3, if_pos (by omega),
      Nat.mod_eq_of_lt (by omega : c.toNat / 4096 < 16), Nat.add_comm 224, Nat.add_comm 128, Nat.add_comm 128]
  · rw [if_neg h1, if_neg (by omega), if_neg h2, if_neg (by omega), if_neg h3, if_neg (by omega),
      Nat.mod_eq_of_lt (by omega : c.toNat / 262144 < 8), Nat.add_comm 240, Nat.add_comm 128, Nat.add_comm 128,
      Nat.add_comm 128]

theorem enc8_ne_nil (c : Char) : enc8 c ≠ [] := by
  rw [enc8_eq]; split <;> (try split) <;> (try split) <;> simp

theorem enc16_ne_nil (c : Char) : enc16 c ≠ [] := by
  unfold enc16; split <;> simp

theorem enc32_ne_nil (c : Char) : enc32 c ≠ [] := by simp [enc32]

/-! ## Prefix freedom -/

/-- No encoding is a proper prefix of another, and encodings are distinct. -/
def PrefixFree (enc : Char → List α) : Prop := ∀ c d l, enc c <+: l → enc d <+: l → c = d

theorem u8_eq {a b : Nat} (ha : a < 256) (hb : b < 256) : UInt8.ofNat a = UInt8.ofNat b ↔ a = b := by
  rw [← UInt8.toNat_inj, UInt8.toNat_ofNat', UInt8.toNat_ofNat']; omega

theorem u16_eq {a b : Nat} (ha : a < 65536) (hb : b < 65536) : UInt16.ofNat a = UInt16.ofNat b ↔ a = b := by
  rw [← UInt16.toNat_inj, UInt16.toNat_ofNat', UInt16.toNat_ofNat']; omega

theorem eq_u8 {a : UInt8} {b : Nat} : a = UInt8.ofNat b ↔ a.toNat = b % 256 := by
  rw [← UInt8.toNat_inj, UInt8.toNat_ofNat']

theorem u8_eq' {a : UInt8} {b : Nat} : UInt8.ofNat b = a ↔ a.toNat = b % 256 := by
  rw [eq_comm, eq_u8]

theorem u16_eq' {a : UInt16} {b : Nat} : UInt16.ofNat b = a ↔ a.toNat = b % 65536 := by
  rw [eq_comm, ← UInt16.toNat_inj, UInt16.toNat_ofNat']

theorem prefixFree8 : PrefixFree enc8 := by
  intro c d l hc hd
  apply char_ext_toNat
  have hvc := char_valid c
  have hvd := char_valid d
  rw [enc8_eq] at hc hd
  rcases l with _ | ⟨x, _ | ⟨y, _ | ⟨z, _ | ⟨w, t⟩⟩⟩⟩ <;>
  (split at hc <;> (try split at hc) <;> (try split at hc) <;>
   split at hd <;> (try split at hd) <;> (try split at hd) <;>
   simp only [List.cons_prefix_cons, u8_eq', List.prefix_nil, List.cons_ne_nil, and_false] at hc hd <;> omega)

theorem prefixFree16 : PrefixFree enc16 := by
  intro c d l hc hd
  apply char_ext_toNat
  have hvc := char_valid c
  have hvd := char_valid d
  unfold enc16 at hc hd
  rcases l with _ | ⟨x, _ | ⟨y, t⟩⟩ <;>
  (split at hc <;> split at hd <;> simp only [List.cons_prefix_cons, u16_eq', List.prefix_nil, List.cons_ne_nil, and_false] at hc hd <;> omega)

theorem prefixFree32 : PrefixFree enc32 := by
  intro c d l hc hd
  rcases l with _ | ⟨x, t⟩
  · simp [enc32] at hc
  · simp [enc32, List.cons_prefix_cons] at hc hd
    exact Char.ext (hc.trans hd.symm)

/-! ## Decoding with replacement is a function -/

theorem decodes_total {enc : Char → List α} (hne : ∀ c, enc c ≠ []) (l : List α) : ∃ t, Decodes enc l t := by
  induction h : l.length using Nat.strongRecOn generalizing l with
  | _ n ih =>
    rcases l with _ | ⟨a, l⟩
    · exact ⟨[], .nil⟩
    · by_cases hc : ∃ c, enc c <+: a :: l
      · obtain ⟨c, r, hr⟩ := hc
        have hlen : (enc c).length + r.length = n := by rw [← h, ← hr]; simp
        have : 0 < (enc c).length := List.length_pos_iff.2 (hne c)
        obtain ⟨t, ht⟩ := ih r.length (by omega) r rfl
        rw [← hr]; exact ⟨_, .valid c r t ht⟩
      · obtain ⟨t, ht⟩ := ih l.length (by simp at h; omega) l rfl
        exact ⟨_, .invalid a l t (fun c h => hc ⟨c, h⟩) ht⟩

theorem decodes_unique {enc : Char → List α} (hne : ∀ c, enc c ≠ []) (hpf : PrefixFree enc)
    {l : List α} {t t' : List Char} (h : Decodes enc l t) (h' : Decodes enc l t') : t = t' := by
  induction h generalizing t' with
  | nil =>
    generalize hl : ([] : List α) = l at h'
    cases h' with
    | nil => rfl
    | valid c r t => exact absurd (List.append_eq_nil_iff.1 hl.symm).1 (hne c)
    | invalid => cases hl
  | valid c r t _ ih =>
    generalize hl : enc c ++ r = l at h'
    cases h' with
    | nil => exact absurd (List.append_eq_nil_iff.1 hl).1 (hne c)
    | valid d r' t' h2 =>
      have : c = d := hpf c d (enc c ++ r) ⟨r, rfl⟩ ⟨r', hl.symm⟩
      subst this
      have := List.append_cancel_left hl
      subst this
      rw [ih h2]
    | invalid u r' t' hn h2 => exact absurd ⟨r, hl⟩ (hn c)
  | invalid u r t hn _ ih =>
    generalize hl : u :: r = l at h'
    cases h' with
    | nil => cases hl
    | valid d r' t' h2 => exact absurd ⟨r', hl.symm⟩ (hn d)
    | invalid u' r' t' _ h2 =>
      cases hl
      rw [ih h2]

theorem decodes_encode (enc : Char → List α) (text : List Char) : Decodes enc (encode enc text) text := by
  induction text with
  | nil => exact .nil
  | cons c t ih => exact .valid c _ _ ih

theorem decodes_encode_append (enc : Char → List α) (text : List Char) {l : List α} {t : List Char}
    (h : Decodes enc l t) : Decodes enc (encode enc text ++ l) (text ++ t) := by
  induction text with
  | nil => exact h
  | cons c cs ih =>
    have := Decodes.valid c _ _ ih
    simpa [encode] using this

/-! ## From one step to the whole loop -/

/-- What one execution of a loop body has to achieve at index `i` of input `u`. -/
def StepOK (enc : Char → List α) (enc' : Char → List β) (u : List α) (r : Option (Nat × List β)) : Prop :=
  (∃ c, enc c <+: u ∧ r = some ((enc c).length - 1, enc' c)) ∨
  ((∀ c, ¬ enc c <+: u) ∧ r = some (0, enc' replacement))

theorem scan_of_step {enc : Char → List α} {enc' : Char → List β} (hne : ∀ c, enc c ≠ []) (hpf : PrefixFree enc)
    (u : List α) (body : Nat → Option (Nat × List β))
    (hstep : ∀ i, i < u.length → StepOK enc enc' (u.drop i) (body i))
    (i : Nat) (out : List β) (t : List Char) (h : Decodes enc (u.drop i) t) :
    scan u.length body i out = some (out ++ encode enc' t) := by
  generalize hl : u.drop i = l at h
  induction h generalizing i out with
  | nil =>
    have : u.length ≤ i := List.drop_eq_nil_iff.1 hl
    rw [scan, if_neg (by omega)]; simp [encode]
  | valid c r t _ ih =>
    have hi : i < u.length := by
      apply Decidable.byContradiction; intro hc
      rw [List.drop_eq_nil_of_le (by omega)] at hl
      exact hne c (List.append_eq_nil_iff.1 hl.symm).1
    have hpos : 0 < (enc c).length := List.length_pos_iff.2 (hne c)
    rcases hstep i hi with ⟨d, hd, hb⟩ | ⟨hn, _⟩
    · have : d = c := hpf d c _ hd (by rw [hl]; exact ⟨r, rfl⟩)
      subst this
      rw [scan, if_pos hi, hb]
      have e : i + ((enc d).length - 1) + 1 = i + (enc d).length := by omega
      simp only [e]
      rw [ih]
      · simp [encode]
      · rw [← List.drop_drop, hl]; simp
    · exact absurd (by rw [hl]; exact ⟨r, rfl⟩) (hn c)
  | invalid x r t hn _ ih =>
    have hi : i < u.length := by
      apply Decidable.byContradiction; intro hc
      rw [List.drop_eq_nil_of_le (by omega)] at hl
      cases hl
    rcases hstep i hi with ⟨d, hd, _⟩ | ⟨_, hb⟩
    · rw [hl] at hd; exact absurd hd (hn d)
    · rw [scan, if_pos hi, hb]
      simp only []
      rw [ih]
      · simp [encode]
      · have : u.drop (i + 0 + 1) = (u.drop i).drop 1 := by rw [List.drop_drop]
        rw [this, hl]; rfl

/-! ## The steps: UTF-8 input -/

theorem enc8_one {a : UInt8} (h : a.toNat < 0x80) : enc8 (Char.ofNat a.toNat) = [a] := by
  have e := char_toNat_ofNat (n := a.toNat) (by omega)
  rw [enc8_eq, e, if_pos h]
  simp

theorem enc8_two {a b : UInt8} (h1 : 0xC2 ≤ a.toNat) (h2 : a.toNat < 0xE0) (h3 : 0x7F < b.toNat) (h4 : b.toNat < 0xC0) :
    enc8 (Char.ofNat (a.toNat % 32 * 64 + b.toNat % 64)) = [a, b] := by
  have e := char_toNat_ofNat (n := a.toNat % 32 * 64 + b.toNat % 64) (by omega)
  rw [enc8_eq, e, if_neg (by omega), if_pos (by omega)]
  simp only [List.cons.injEq, u8_eq', and_true]; omega

theorem enc8_three {a b c : UInt8} (h1 : 0xE0 ≤ a.toNat) (h2 : a.toNat < 0xF0) (h3 : 0x7F < b.toNat)
    (h4 : b.toNat < 0xC0) (h5 : 0x7F < c.toNat) (h6 : c.toNat < 0xC0)
    (h7 : 0x7FF < a.toNat % 16 * 4096 + b.toNat % 64 * 64 + c.toNat % 64 ∧
        a.toNat % 16 * 4096 + b.toNat % 64 * 64 + c.toNat % 64 < 0xD800 ∨
      0xDFFF < a.toNat % 16 * 4096 + b.toNat % 64 * 64 + c.toNat % 64) :
    enc8 (Char.ofNat (a.toNat % 16 * 4096 + b.toNat % 64 * 64 + c.toNat % 64)) = [a, b, c] := by
  have e := char_toNat_ofNat (n := a.toNat % 16 * 4096 + b.toNat % 64 * 64 + c.toNat % 64) (by omega)
  rw [enc8_eq, e, if_neg (by omega), if_neg (by omega), if_pos (by omega)]
  simp only [List.cons.injEq, u8_eq', and_true]; omega

theorem enc8_four {a b c d : UInt8} (h1 : 0xF0 ≤ a.toNat) (h2 : a.toNat < 0xF8) (h3 : 0x7F < b.toNat)
    (h4 : b.toNat < 0xC0) (h5 : 0x7F < c.toNat) (h6 : c.toNat < 0xC0) (h7 : 0x7F < d.toNat) (h8 : d.toNat < 0xC0)
    (h9 : 0xFFFF < a.toNat % 8 * 262144 + b.toNat % 64 * 4096 + c.toNat % 64 * 64 + d.toNat % 64)
    (h10 : a.toNat % 8 * 262144 + b.toNat % 64 * 4096 + c.toNat % 64 * 64 + d.toNat % 64 < 0x110000) :
    enc8 (Char.ofNat (a.toNat % 8 * 262144 + b.toNat % 64 * 4096 + c.toNat % 64 * 64 + d.toNat % 64)) =
      [a, b, c, d] := by
  have e := char_toNat_ofNat
    (n := a.toNat % 8 * 262144 + b.toNat % 64 * 4096 + c.toNat % 64 * 64 + d.toNat % 64) (by omega)
  rw [enc8_eq, e, if_neg (by omega), if_neg (by omega), if_neg (by omega)]
  simp only [List.cons.injEq, u8_eq', and_true]; omega

/-- The shapes of a byte list that starts with the encoding of a scalar value. -/
theorem enc8_inv {c : Char} {a : UInt8} {t : List UInt8} (h : enc8 c <+: a :: t) :
    a.toNat < 0x80 ∨
    (0xC2 ≤ a.toNat ∧ a.toNat < 0xE0 ∧ ∃ b t', t = b :: t' ∧ 0x7F < b.toNat ∧ b.toNat < 0xC0) ∨
    (0xE0 ≤ a.toNat ∧ a.toNat < 0xF0 ∧ ∃ b d t', t = b :: d :: t' ∧ 0x7F < b.toNat ∧ b.toNat < 0xC0 ∧
      0x7F < d.toNat ∧ d.toNat < 0xC0 ∧
      (0x7FF < a.toNat % 16 * 4096 + b.toNat % 64 * 64 + d.toNat % 64 ∧
          a.toNat % 16 * 4096 + b.toNat % 64 * 64 + d.toNat % 64 < 0xD800 ∨
        0xDFFF < a.toNat % 16 * 4096 + b.toNat % 64 * 64 + d.toNat % 64)) ∨
    (0xF0 ≤ a.toNat ∧ a.toNat < 0xF8 ∧ ∃ b d e t', t = b :: d :: e :: t' ∧ 0x7F < b.toNat ∧ b.toNat < 0xC0 ∧
      0x7F < d.toNat ∧ d.toNat < 0xC0 ∧ 0x7F < e.toNat ∧ e.toNat < 0xC0 ∧
      0xFFFF < a.toNat % 8 * 262144 + b.toNat % 64 * 4096 + d.toNat % 64 * 64 + e.toNat % 64 ∧
      a.toNat % 8 * 262144 + b.toNat % 64 * 4096 + d.toNat % 64 * 64 + e.toNat % 64 < 0x110000) := by
  have hv := char_valid c
  rw [enc8_eq] at h
  split at h
  · simp only [List.cons_prefix_cons, u8_eq'] at h
    left; omega
  · split at h
    · rcases t with _ | ⟨b, t⟩ <;>
        simp only [List.cons_prefix_cons, u8_eq', List.prefix_nil, List.cons_ne_nil, and_false] at h
      right; left
      exact ⟨by omega, by omega, b, t, rfl, by omega, by omega⟩
    · split at h
      · rcases t with _ | ⟨b, _ | ⟨d, t⟩⟩ <;>
          simp only [List.cons_prefix_cons, u8_eq', List.prefix_nil, List.cons_ne_nil, and_false] at h
        right; right; left
        exact ⟨by omega, by omega, b, d, t, rfl, by omega, by omega, by omega, by omega, by omega⟩
      · rcases t with _ | ⟨b, _ | ⟨d, _ | ⟨e, t⟩⟩⟩ <;>
          simp only [List.cons_prefix_cons, u8_eq', List.prefix_nil, List.cons_ne_nil, and_false] at h
        right; right; right
        exact ⟨by omega, by omega, b, d, e, t, rfl, by omega, by omega, by omega, by omega, by omega, by omega,
          by omega, by omega⟩

theorem enc16_small {n : Nat} (h : n < 0xD800 ∨ (0xDFFF < n ∧ n < 0x10000)) :
    enc16 (Char.ofNat n) = [UInt16.ofNat n] := by
  rw [enc16, char_toNat_ofNat (by omega), if_pos (by omega)]

theorem enc16_large {n : Nat} (h : 0xFFFF < n) (h' : n < 0x110000) :
    enc16 (Char.ofNat n) = [UInt16.ofNat (((n - 0x10000) >>> 10) + 0xD800),
      UInt16.ofNat (((n - 0x10000) &&& 0x3FF) + 0xDC00)] := by
  rw [enc16, char_toNat_ofNat (by omega), if_neg (by omega), and_3FF, Nat.shiftRight_eq_div_pow,
    Nat.add_comm 0xD800, Nat.add_comm 0xDC00]

theorem enc32_ofNat {n : Nat} (h : n < 0xD800 ∨ (0xDFFF < n ∧ n < 0x110000)) :
    enc32 (Char.ofNat n) = [UInt32.ofNat n] := by
  have h' := char_toNat_ofNat h
  rw [enc32, List.cons.injEq, ← UInt32.toNat_inj, UInt32.toNat_ofNat', Nat.mod_eq_of_lt (by omega)]
  exact ⟨h', rfl⟩

theorem enc8_small1 {n : Nat} (h : n < 0x80) : enc8 (Char.ofNat n) = [UInt8.ofNat n] := by
  rw [enc8_eq, char_toNat_ofNat (by omega), if_pos h]

theorem enc8_small2 {n : Nat} (h : ¬ n < 0x80) (h' : n < 0x800) : enc8 (Char.ofNat n) =
    [UInt8.ofNat (0xC0 ||| (n >>> 6)), UInt8.ofNat (0x80 ||| (n &&& 0x3F))] := by
  rw [enc8_eq, char_toNat_ofNat (by omega), if_neg h, if_pos h', or_C0 n h', or_80]

theorem enc8_small3 {n : Nat} (h : ¬ n < 0x800) (h' : n < 0x10000) (h2 : n < 0xD800 ∨ 0xDFFF < n) :
    enc8 (Char.ofNat n) = [UInt8.ofNat (0xE0 ||| (n >>> 12)), UInt8.ofNat (0x80 ||| ((n >>> 6) &&& 0x3F)),
      UInt8.ofNat (0x80 ||| (n &&& 0x3F))] := by
  rw [enc8_eq, char_toNat_ofNat (by omega), if_neg (by omega), if_neg h, if_pos h', or_E0 n h', or_80, or_80,
    Nat.shiftRight_eq_div_pow]

theorem enc8_small4 {n : Nat} (h : ¬ n < 0x10000) (h' : n < 0x110000) :
    enc8 (Char.ofNat n) = [UInt8.ofNat (0xF0 ||| (n >>> 18)), UInt8.ofNat (0x80 ||| ((n >>> 12) &&& 0x3F)),
      UInt8.ofNat (0x80 ||| ((n >>> 6) &&& 0x3F)), UInt8.ofNat (0x80 ||| (n &&& 0x3F))] := by
  rw [enc8_eq, char_toNat_ofNat (by omega), if_neg (by omega), if_neg (by omega), if_neg h, or_F0 n h', or_80, or_80,
    or_80, Nat.shiftRight_eq_div_pow, Nat.shiftRight_eq_div_pow]

theorem enc8_replacement : enc8 replacement = [0xEF, 0xBF, 0xBD] := by decide
theorem enc16_replacement : enc16 replacement = [0xFFFD] := by decide
theorem enc32_replacement : enc32 replacement = [0xFFFD] := by decide

theorem stepOK_valid {enc : Char → List α} {enc' : Char → List β} {c : Char} {p t : List α} {n : Nat} {o : List β}
    (h : enc c = p) (hn : n = p.length - 1) (ho : enc' c = o) : StepOK enc enc' (p ++ t) (some (n, o)) := by
  refine Or.inl ⟨c, ?_, ?_⟩
  · rw [h]; exact ⟨t, rfl⟩
  · rw [h, hn, ho]

theorem utf8ToUtf32Body_drop (u : List UInt8) (i : Nat) :
    utf8ToUtf32Body u i = utf8ToUtf32Body (u.drop i) 0 := by
  have h (k : Nat) : (k < u.length - i) = (i + k < u.length) := propext (by omega)
  simp [utf8ToUtf32Body, List.getElem?_drop, h]

theorem utf8ToUtf16Body_drop (u : List UInt8) (i : Nat) :
    utf8ToUtf16Body u i = utf8ToUtf16Body (u.drop i) 0 := by
  have h (k : Nat) : (k < u.length - i) = (i + k < u.length) := propext (by omega)
  simp [utf8ToUtf16Body, List.getElem?_drop, h]

theorem utf16ToUtf8Body_drop (u : List UInt16) (i : Nat) :
    utf16ToUtf8Body u i = utf16ToUtf8Body (u.drop i) 0 := by
  have h (k : Nat) : (k < u.length - i) = (i + k < u.length) := propext (by omega)
  simp [utf16ToUtf8Body, List.getElem?_drop, h]

theorem utf16ToUtf32Body_drop (u : List UInt16) (i : Nat) :
    utf16ToUtf32Body u i = utf16ToUtf32Body (u.drop i) 0 := by
  have h (k : Nat) : (k < u.length - i) = (i + k < u.length) := propext (by omega)
  simp [utf16ToUtf32Body, List.getElem?_drop, h]

theorem utf32ToUtf8Body_drop (k : Elem32Kind) (u : List UInt32) (i : Nat) :
    utf32ToUtf8Body k u i = utf32ToUtf8Body k (u.drop i) 0 := by
  simp [utf32ToUtf8Body, List.getElem?_drop]

theorem utf32ToUtf16Body_drop (k : Elem32Kind) (u : List UInt32) (i : Nat) :
    utf32ToUtf16Body k u i = utf32ToUtf16Body k (u.drop i) 0 := by
  simp [utf32ToUtf16Body, List.getElem?_drop]

/-- Closes the goals in which a body rejects the byte at hand. -/
macro "reject8" : tactic => `(tactic| (
  refine Or.inr ⟨fun c hc => ?_, by first | rw [enc32_replacement] | rw [enc16_replacement]⟩
  rcases enc8_inv hc with h | ⟨_, _, b, t', he, _, _⟩ | ⟨_, _, b, d, t', he, _, _, _, _, _⟩ |
    ⟨_, _, b, d, e, t', he, _, _, _, _, _, _, _, _⟩
  · omega
  all_goals first | omega | (cases he; omega) | (cases he; done)))

theorem step8to32 (u : List UInt8) (hu : u ≠ []) : StepOK enc8 enc32 u (utf8ToUtf32Body u 0) := by
  rcases u with _ | ⟨a, t⟩
  · exact absurd rfl hu
  clear hu
  simp only [utf8ToUtf32Body, List.getElem?_cons_zero, Option.bind_eq_bind, Option.bind_some, cp2, cp3, cp4]
  split
  · exact stepOK_valid (p := [a]) (enc8_one ‹_›) rfl (enc32_ofNat (by omega))
  split
  · reject8
  split
  · rcases t with _ | ⟨b, t⟩
    · simp only [List.length_cons, List.length_nil, Nat.zero_add, Nat.lt_irrefl, if_false]
      reject8
    · simp only [List.length_cons, Nat.zero_add, List.getElem?_cons_succ, List.getElem?_cons_zero,
        Option.bind_some, if_pos (show 1 < t.length + 1 + 1 by omega)]
      split
      · exact stepOK_valid (p := [a, b]) (enc8_two (by omega) (by omega) (by omega) (by omega)) rfl
          (enc32_ofNat (by omega))
      · reject8
  split
  · split
    · rcases t with _ | ⟨b, _ | ⟨d, t⟩⟩
      · exfalso; simp only [List.length_cons, List.length_nil] at *; omega
      · exfalso; simp only [List.length_cons, List.length_nil] at *; omega
      · simp only [Nat.zero_add, List.getElem?_cons_succ, List.getElem?_cons_zero, Option.bind_some]
        split
        · split
          · exact stepOK_valid (p := [a, b, d]) (enc8_three (by omega) (by omega) (by omega) (by omega) (by omega)
              (by omega) (by omega)) rfl (enc32_ofNat (by omega))
          · reject8
        · reject8
    · rcases t with _ | ⟨b, _ | ⟨d, t⟩⟩
      · reject8
      · reject8
      · exfalso; simp only [List.length_cons] at *; omega
  split
  · split
    · rcases t with _ | ⟨b, _ | ⟨d, _ | ⟨e, t⟩⟩⟩
      · exfalso; simp only [List.length_cons, List.length_nil] at *; omega
      · exfalso; simp only [List.length_cons, List.length_nil] at *; omega
      · exfalso; simp only [List.length_cons, List.length_nil] at *; omega
      · simp only [Nat.zero_add, List.getElem?_cons_succ, List.getElem?_cons_zero, Option.bind_some]
        split
        · split
          · exact stepOK_valid (p := [a, b, d, e]) (enc8_four (by omega) (by omega) (by omega) (by omega) (by omega)
              (by omega) (by omega) (by omega) (by omega) (by omega)) rfl (enc32_ofNat (by omega))
          · reject8
        · reject8
    · rcases t with _ | ⟨b, _ | ⟨d, _ | ⟨e, t⟩⟩⟩
      · reject8
      · reject8
      · reject8
      · exfalso; simp only [List.length_cons] at *; omega
  · reject8

theorem step8to16 (u : List UInt8) (hu : u ≠ []) : StepOK enc8 enc16 u (utf8ToUtf16Body u 0) := by
  rcases u with _ | ⟨a, t⟩
  · exact absurd rfl hu
  clear hu
  simp only [utf8ToUtf16Body, List.getElem?_cons_zero, Option.bind_eq_bind, Option.bind_some, cp2, cp3, cp4]
  split
  · exact stepOK_valid (p := [a]) (enc8_one ‹_›) rfl (enc16_small (by omega))
  split
  · reject8
  split
  · rcases t with _ | ⟨b, t⟩
    · simp only [List.length_cons, List.length_nil, Nat.zero_add, Nat.lt_irrefl, if_false]
      reject8
    · simp only [List.length_cons, Nat.zero_add, List.getElem?_cons_succ, List.getElem?_cons_zero,
        Option.bind_some, if_pos (show 1 < t.length + 1 + 1 by omega)]
      split
      · exact stepOK_valid (p := [a, b]) (enc8_two (by omega) (by omega) (by omega) (by omega)) rfl
          (enc16_small (by omega))
      · reject8
  split
  · split
    · rcases t with _ | ⟨b, _ | ⟨d, t⟩⟩
      · exfalso; simp only [List.length_cons, List.length_nil] at *; omega
      · exfalso; simp only [List.length_cons, List.length_nil] at *; omega
      · simp only [Nat.zero_add, List.getElem?_cons_succ, List.getElem?_cons_zero, Option.bind_some]
        split
        · split
          · exact stepOK_valid (p := [a, b, d]) (enc8_three (by omega) (by omega) (by omega) (by omega) (by omega)
              (by omega) (by omega)) rfl (enc16_small (by omega))
          · reject8
        · reject8
    · rcases t with _ | ⟨b, _ | ⟨d, t⟩⟩
      · reject8
      · reject8
      · exfalso; simp only [List.length_cons] at *; omega
  split
  · split
    · rcases t with _ | ⟨b, _ | ⟨d, _ | ⟨e, t⟩⟩⟩
      · exfalso; simp only [List.length_cons, List.length_nil] at *; omega
      · exfalso; simp only [List.length_cons, List.length_nil] at *; omega
      · exfalso; simp only [List.length_cons, List.length_nil] at *; omega
      · simp only [Nat.zero_add, List.getElem?_cons_succ, List.getElem?_cons_zero, Option.bind_some]
        split
        · split
          · exact stepOK_valid (p := [a, b, d, e]) (enc8_four (by omega) (by omega) (by omega) (by omega) (by omega)
              (by omega) (by omega) (by omega) (by omega) (by omega)) rfl (enc16_large (by omega) (by omega))
          · reject8
        · reject8
    · rcases t with _ | ⟨b, _ | ⟨d, _ | ⟨e, t⟩⟩⟩
      · reject8
      · reject8
      · reject8
      · exfalso; simp only [List.length_cons] at *; omega
  · reject8

/-! ## The steps: UTF-16 input -/

theorem enc16_inv {c : Char} {a : UInt16} {t : List UInt16} (h : enc16 c <+: a :: t) :
    a.toNat < 0xD800 ∨ 0xDFFF < a.toNat ∨
    (0xD800 ≤ a.toNat ∧ a.toNat < 0xDC00 ∧ ∃ b t', t = b :: t' ∧ 0xDBFF < b.toNat ∧ b.toNat < 0xE000) := by
  have hv := char_valid c
  rw [enc16] at h
  split at h
  · simp only [List.cons_prefix_cons, u16_eq'] at h
    omega
  · rcases t with _ | ⟨b, t⟩ <;>
      simp only [List.cons_prefix_cons, u16_eq', List.prefix_nil, List.cons_ne_nil, and_false] at h
    right; right
    exact ⟨by omega, by omega, b, t, rfl, by omega, by omega⟩

theorem enc16_one {a : UInt16} (h : a.toNat < 0xD800 ∨ 0xDFFF < a.toNat) : enc16 (Char.ofNat a.toNat) = [a] := by
  have := a.toNat_lt
  rw [enc16_small (by omega)]
  simp

theorem enc16_two {a b : UInt16} (h1 : 0xD800 ≤ a.toNat) (h2 : a.toNat < 0xDC00) (h3 : 0xDBFF < b.toNat)
    (h4 : b.toNat < 0xE000) :
    enc16 (Char.ofNat (a.toNat % 1024 * 1024 + b.toNat % 1024 + 0x10000)) = [a, b] := by
  rw [enc16_large (by omega) (by omega), and_3FF, Nat.shiftRight_eq_div_pow]
  simp only [List.cons.injEq, u16_eq', and_true]; omega

/-- Closes the goals in which a body rejects the 16-bit unit at hand. -/
macro "reject16" : tactic => `(tactic| (
  refine Or.inr ⟨fun c hc => ?_, by first | rw [enc32_replacement] | rw [enc8_replacement]⟩
  rcases enc16_inv hc with h | h | ⟨_, _, b, t', he, _, _⟩
  · omega
  · omega
  · first | omega | (cases he; omega) | (cases he; done)))

theorem step16to32 (u : List UInt16) (hu : u ≠ []) : StepOK enc16 enc32 u (utf16ToUtf32Body u 0) := by
  rcases u with _ | ⟨a, t⟩
  · exact absurd rfl hu
  clear hu
  have ha := a.toNat_lt
  simp only [utf16ToUtf32Body, List.getElem?_cons_zero, Option.bind_eq_bind, Option.bind_some, surr]
  split
  · exact stepOK_valid (p := [a]) (enc16_one (by omega)) rfl (enc32_ofNat (by omega))
  split
  · rcases t with _ | ⟨b, t⟩
    · simp only [List.length_cons, List.length_nil, Nat.zero_add, Nat.lt_irrefl, if_false]
      reject16
    · simp only [List.length_cons, Nat.zero_add, List.getElem?_cons_succ, List.getElem?_cons_zero,
        Option.bind_some, if_pos (show 1 < t.length + 1 + 1 by omega)]
      split
      · exact stepOK_valid (p := [a, b]) (enc16_two (by omega) (by omega) (by omega) (by omega)) rfl
          (enc32_ofNat (by omega))
      · reject16
  · reject16

theorem step16to8 (u : List UInt16) (hu : u ≠ []) : StepOK enc16 enc8 u (utf16ToUtf8Body u 0) := by
  rcases u with _ | ⟨a, t⟩
  · exact absurd rfl hu
  clear hu
  have ha := a.toNat_lt
  simp only [utf16ToUtf8Body, List.getElem?_cons_zero, Option.bind_eq_bind, Option.bind_some, surr]
  split
  · exact stepOK_valid (p := [a]) (enc16_one (by omega)) rfl (enc8_small1 (by omega))
  split
  · exact stepOK_valid (p := [a]) (enc16_one (by omega)) rfl (enc8_small2 (by omega) (by omega))
  split
  · exact stepOK_valid (p := [a]) (enc16_one (by omega)) rfl (enc8_small3 (by omega) (by omega) (by omega))
  split
  · rcases t with _ | ⟨b, t⟩
    · simp only [List.length_cons, List.length_nil, Nat.zero_add, Nat.lt_irrefl, if_false]
      reject16
    · simp only [List.length_cons, Nat.zero_add, List.getElem?_cons_succ, List.getElem?_cons_zero,
        Option.bind_some, if_pos (show 1 < t.length + 1 + 1 by omega)]
      split
      · exact stepOK_valid (p := [a, b]) (enc16_two (by omega) (by omega) (by omega) (by omega)) rfl
          (enc8_small4 (by omega) (by omega))
      · reject16
  · reject16

/-! ## The steps: UTF-32 input -/

theorem toULong_lt (k : Elem32Kind) (x : UInt32) (h : toULong k x < 0x110000) : toULong k x = x.toNat := by
  unfold toULong at h ⊢
  split
  · rename_i hc; rw [if_pos hc] at h; omega
  · rfl

theorem toULong_of_lt (k : Elem32Kind) (x : UInt32) (h : x.toNat < 0x110000) : toULong k x = x.toNat := by
  unfold toULong
  rw [if_neg (by omega)]

theorem enc32_inv {c : Char} {a : UInt32} {t : List UInt32} (h : enc32 c <+: a :: t) :
    a.toNat < 0xD800 ∨ (0xDFFF < a.toNat ∧ a.toNat < 0x110000) := by
  simp only [enc32, List.cons_prefix_cons] at h
  rw [← h.1]
  exact char_valid c

theorem enc32_one {a : UInt32} (h : a.toNat < 0xD800 ∨ (0xDFFF < a.toNat ∧ a.toNat < 0x110000)) :
    enc32 (Char.ofNat a.toNat) = [a] := by
  rw [enc32_ofNat h]; simp

theorem step32to8 (k : Elem32Kind) (u : List UInt32) (hu : u ≠ []) : StepOK enc32 enc8 u (utf32ToUtf8Body k u 0) := by
  rcases u with _ | ⟨a, t⟩
  · exact absurd rfl hu
  clear hu
  simp only [utf32ToUtf8Body, List.getElem?_cons_zero, Option.bind_eq_bind, Option.bind_some]
  have h1 := toULong_lt k a
  have h2 := toULong_of_lt k a
  generalize toULong k a = n at h1 h2
  have e (h : n < 0xD800 ∨ (0xDFFF < n ∧ n < 0x110000)) : enc32 (Char.ofNat n) = [a] := by
    have : n = a.toNat := h1 (by omega)
    subst this
    exact enc32_one h
  have bad (h : ¬ (n < 0xD800 ∨ (0xDFFF < n ∧ n < 0x110000))) (c : Char) : ¬ enc32 c <+: a :: t := by
    intro hc
    have := enc32_inv hc
    omega
  split
  · exact stepOK_valid (p := [a]) (e (by omega)) rfl (enc8_small1 (by omega))
  split
  · exact stepOK_valid (p := [a]) (e (by omega)) rfl (enc8_small2 (by omega) (by omega))
  split
  · split
    · exact stepOK_valid (p := [a]) (e (by omega)) rfl (enc8_small3 (by omega) (by omega) (by omega))
    · exact Or.inr ⟨bad (by omega), by rw [enc8_replacement]⟩
  split
  · exact stepOK_valid (p := [a]) (e (by omega)) rfl (enc8_small4 (by omega) (by omega))
  · exact Or.inr ⟨bad (by omega), by rw [enc8_replacement]⟩

theorem step32to16 (k : Elem32Kind) (u : List UInt32) (hu : u ≠ []) :
    StepOK enc32 enc16 u (utf32ToUtf16Body k u 0) := by
  rcases u with _ | ⟨a, t⟩
  · exact absurd rfl hu
  clear hu
  simp only [utf32ToUtf16Body, List.getElem?_cons_zero, Option.bind_eq_bind, Option.bind_some]
  have h1 := toULong_lt k a
  have h2 := toULong_of_lt k a
  generalize toULong k a = n at h1 h2
  have e (h : n < 0xD800 ∨ (0xDFFF < n ∧ n < 0x110000)) : enc32 (Char.ofNat n) = [a] := by
    have : n = a.toNat := h1 (by omega)
    subst this
    exact enc32_one h
  have bad (h : ¬ (n < 0xD800 ∨ (0xDFFF < n ∧ n < 0x110000))) (c : Char) : ¬ enc32 c <+: a :: t := by
    intro hc
    have := enc32_inv hc
    omega
  split
  · exact stepOK_valid (p := [a]) (e (by omega)) rfl (enc16_small (by omega))
  split
  · exact stepOK_valid (p := [a]) (e (by omega)) rfl (enc16_large (by omega) (by omega))
  · exact Or.inr ⟨bad (by omega), by rw [enc16_replacement]⟩

/-! ## The six converters -/

theorem drop_ne_nil {l : List α} {i : Nat} (h : i < l.length) : l.drop i ≠ [] := by
  intro hc
  have := List.drop_eq_nil_iff.1 hc
  omega

theorem utf8ToUtf16_spec {u : List UInt8} {t : List Char} (out : List UInt16) (h : Decodes enc8 u t) :
    utf8ToUtf16 u out = some (out ++ encode enc16 t) :=
  scan_of_step enc8_ne_nil prefixFree8 u _
    (fun i hi => by rw [utf8ToUtf16Body_drop]; exact step8to16 _ (drop_ne_nil hi)) 0 out t (by simpa using h)

theorem utf8ToUtf32_spec {u : List UInt8} {t : List Char} (out : List UInt32) (h : Decodes enc8 u t) :
    utf8ToUtf32 u out = some (out ++ encode enc32 t) :=
  scan_of_step enc8_ne_nil prefixFree8 u _
    (fun i hi => by rw [utf8ToUtf32Body_drop]; exact step8to32 _ (drop_ne_nil hi)) 0 out t (by simpa using h)

theorem utf16ToUtf8_spec {u : List UInt16} {t : List Char} (out : List UInt8) (h : Decodes enc16 u t) :
    utf16ToUtf8 u out = some (out ++ encode enc8 t) :=
  scan_of_step enc16_ne_nil prefixFree16 u _
    (fun i hi => by rw [utf16ToUtf8Body_drop]; exact step16to8 _ (drop_ne_nil hi)) 0 out t (by simpa using h)

theorem utf16ToUtf32_spec {u : List UInt16} {t : List Char} (out : List UInt32) (h : Decodes enc16 u t) :
    utf16ToUtf32 u out = some (out ++ encode enc32 t) :=
  scan_of_step enc16_ne_nil prefixFree16 u _
    (fun i hi => by rw [utf16ToUtf32Body_drop]; exact step16to32 _ (drop_ne_nil hi)) 0 out t (by simpa using h)

theorem utf32ToUtf8_spec (k : Elem32Kind) {u : List UInt32} {t : List Char} (out : List UInt8)
    (h : Decodes enc32 u t) : utf32ToUtf8 k u out = some (out ++ encode enc8 t) :=
  scan_of_step enc32_ne_nil prefixFree32 u _
    (fun i hi => by rw [utf32ToUtf8Body_drop]; exact step32to8 k _ (drop_ne_nil hi)) 0 out t (by simpa using h)

theorem utf32ToUtf16_spec (k : Elem32Kind) {u : List UInt32} {t : List Char} (out : List UInt16)
    (h : Decodes enc32 u t) : utf32ToUtf16 k u out = some (out ++ encode enc16 t) :=
  scan_of_step enc32_ne_nil prefixFree32 u _
    (fun i hi => by rw [utf32ToUtf16Body_drop]; exact step32to16 k _ (drop_ne_nil hi)) 0 out t (by simpa using h)

end Pluto.Unicode
