import Verif.Spec.UtfOrder
import Verif.Proofs.UtfStr

/-! # Lemmas on the order of encoded text (C155) -/

namespace Pluto.UtfProofs
open Spec Unicode

variable {α : Type} {num : α → Nat}

theorem below_append (p : List α) {x y : List α} (h : Below num x y) : Below num (p ++ x) (p ++ y) := by
  induction p with
  | nil => exact h
  | cons a p ih => exact .tail a _ _ ih

theorem below_of_append (p : List α) {x y : List α} (h : Below num (p ++ x) (p ++ y)) : Below num x y := by
  induction p with
  | nil => exact h
  | cons a p ih =>
    rcases h with _ | ⟨_, _, _, _, h⟩ | ⟨_, _, _, h⟩
    · omega
    · exact ih h

theorem below_asymm {x y : List α} (h : Below num x y) : ¬ Below num y x := by
  induction h with
  | nil b y => intro h; cases h
  | head a b x y h =>
    intro h'
    cases h' with
    | head _ _ _ _ h' => omega
    | tail _ _ _ h' => omega
  | tail a x y h ih =>
    intro h'
    cases h' with
    | head _ _ _ _ h' => omega
    | tail _ _ _ h' => exact ih h'

theorem below_irrefl (x : List α) : ¬ Below num x x := fun h => below_asymm h h

theorem below_total (hn : ∀ a b, num a = num b → a = b) (x y : List α) : Below num x y ∨ x = y ∨ Below num y x := by
  induction x generalizing y with
  | nil =>
    cases y with
    | nil => exact .inr (.inl rfl)
    | cons b y => exact .inl (.nil b y)
  | cons a x ih =>
    cases y with
    | nil => exact .inr (.inr (.nil a x))
    | cons b y =>
      rcases Nat.lt_trichotomy (num a) (num b) with h | h | h
      · exact .inl (.head _ _ _ _ h)
      · obtain rfl := hn _ _ h
        rcases ih y with h | rfl | h
        · exact .inl (.tail _ _ _ h)
        · exact .inr (.inl rfl)
        · exact .inr (.inr (.tail _ _ _ h))
      · exact .inr (.inr (.head _ _ _ _ h))

/-- The units of the smaller character come first, whatever follows. -/
def Ordered (num : α → Nat) (enc : Char → List α) (c d : Char) : Prop :=
  ∀ x y, Below num (enc c ++ x) (enc d ++ y)

theorem below_encode {enc : Char → List α} (hne : ∀ c, enc c ≠ []) {s t : List Char} (h : Below Char.toNat s t)
    (ho : ∀ c ∈ s, ∀ d ∈ t, c.toNat < d.toNat → Ordered num enc c d) : Below num (encode enc s) (encode enc t) := by
  induction h with
  | nil b y =>
    rw [encode_cons, encode_nil]
    cases e : enc b with
    | nil => exact (hne b e).elim
    | cons u us => exact .nil _ _
  | head a b x y h =>
    exact ho a (by simp) b (by simp) h _ _
  | tail a x y _ ih =>
    rw [encode_cons, encode_cons]
    exact below_append _ (ih fun c hc d hd => ho c (by simp [hc]) d (by simp [hd]))

theorem below_encode_iff {enc : Char → List α} (hne : ∀ c, enc c ≠ []) (s t : List Char)
    (ho : ∀ c ∈ s, ∀ d ∈ t, c.toNat < d.toNat → Ordered num enc c d)
    (ho' : ∀ c ∈ t, ∀ d ∈ s, c.toNat < d.toNat → Ordered num enc c d) :
    Below num (encode enc s) (encode enc t) ↔ Below Char.toNat s t := by
  refine ⟨fun h => ?_, fun h => below_encode hne h ho⟩
  rcases below_total (fun _ _ => char_ext_toNat) s t with h' | rfl | h'
  · exact h'
  · exact (below_irrefl _ h).elim
  · exact (below_asymm h (below_encode hne h' ho')).elim

theorem b8 {a b : Nat} (ha : a < b) (hb : b < 256) {x y : List UInt8} :
    Below UInt8.toNat (UInt8.ofNat a :: x) (UInt8.ofNat b :: y) :=
  .head _ _ _ _ (by rw [u8_toNat (by omega), u8_toNat hb]; exact ha)

theorem b16 {a b : Nat} (ha : a < b) (hb : b < 65536) {x y : List UInt16} :
    Below UInt16.toNat (UInt16.ofNat a :: x) (UInt16.ofNat b :: y) :=
  .head _ _ _ _ (by rw [u16_toNat (by omega), u16_toNat hb]; exact ha)

/-- A step of the comparison: the quotients decide, or they are equal. -/
theorem b8_step {a b : Nat} (h : a ≤ b) (hb : b < 256) {x y : List UInt8} (ht : a = b → Below UInt8.toNat x y) :
    Below UInt8.toNat (UInt8.ofNat a :: x) (UInt8.ofNat b :: y) := by
  rcases Nat.lt_or_eq_of_le h with h | rfl
  · exact b8 h hb
  · exact .tail _ _ _ (ht rfl)

theorem ordered8 {c d : Char} (h : c.toNat < d.toNat) : Ordered UInt8.toNat enc8 c d := by
  intro x y
  have hc := char_valid c
  have hd := char_valid d
  rw [enc8_eq, enc8_eq]
  split
  · (split; rotate_left; split; rotate_left; split) <;> exact b8 (by omega) (by omega)
  split
  · rw [if_neg (by omega)]
    split
    · refine b8_step (by omega) (by omega) fun e => ?_
      exact b8 (by omega) (by omega)
    split <;> exact b8 (by omega) (by omega)
  split
  · rw [if_neg (by omega), if_neg (by omega)]
    split
    · refine b8_step (by omega) (by omega) fun e => ?_
      refine b8_step (by omega) (by omega) fun e => ?_
      exact b8 (by omega) (by omega)
    · exact b8 (by omega) (by omega)
  · rw [if_neg (by omega), if_neg (by omega), if_neg (by omega)]
    refine b8_step (by omega) (by omega) fun e => ?_
    refine b8_step (by omega) (by omega) fun e => ?_
    refine b8_step (by omega) (by omega) fun e => ?_
    exact b8 (by omega) (by omega)

theorem ordered32 {c d : Char} (h : c.toNat < d.toNat) : Ordered UInt32.toNat enc32 c d :=
  fun _ _ => .head _ _ _ _ h

theorem ordered16 {c d : Char} (h : c.toNat < d.toNat) (hp : ¬ (High c ∧ Pair d)) : Ordered UInt16.toNat enc16 c d := by
  intro x y
  have hc := char_valid c
  have hd := char_valid d
  unfold High Pair at hp
  unfold enc16
  split
  · split
    · exact b16 (by omega) (by omega)
    · exact b16 (by omega) (by omega)
  · rw [if_neg (by omega)]
    by_cases e : (c.toNat - 0x10000) / 0x400 = (d.toNat - 0x10000) / 0x400
    · rw [e]
      exact .tail _ _ _ (b16 (by omega) (by omega))
    · exact b16 (by omega) (by omega)

theorem reversed16 {c d : Char} (hc : High c) (hd : Pair d) : Ordered UInt16.toNat enc16 d c := by
  intro x y
  have hv := char_valid d
  unfold High at hc
  unfold Pair at hd
  unfold enc16
  rw [if_neg (by omega), if_pos hc.2]
  exact b16 (by omega) (by omega)

theorem mixed_symm {s t : List Char} (h : Mixed s t) : Mixed t s := by
  obtain ⟨p, c, d, s', t', hs, ht, h⟩ := h
  exact ⟨p, d, c, t', s', ht, hs, h.symm.imp (fun h => ⟨h.2, h.1⟩) (fun h => ⟨h.2, h.1⟩)⟩

theorem below16_of {s t : List Char} (h : Below Char.toNat s t) (hm : ¬ Mixed s t) :
    Below UInt16.toNat (encode enc16 s) (encode enc16 t) := by
  induction h with
  | nil b y =>
    rw [encode_cons, encode_nil]
    cases e : enc16 b with
    | nil => exact absurd e (enc16_ne_nil b)
    | cons u us => exact .nil _ _
  | head a b x y h =>
    rw [encode_cons, encode_cons]
    exact ordered16 h (fun hp => hm ⟨[], a, b, x, y, rfl, rfl, .inl hp⟩) _ _
  | tail a x y _ ih =>
    rw [encode_cons, encode_cons]
    refine below_append _ (ih fun ⟨p, c, d, s', t', hs, ht, h⟩ => hm ⟨a :: p, c, d, s', t', by rw [hs]; rfl, by rw [ht]; rfl, h⟩)

end Pluto.UtfProofs
