import Verif.Spec.FloatSpecial
import Verif.Spec.Seq
import Mathlib.Order.OrderDual

/-! # Lemmas about special floating-point values -/

namespace Pluto.FloatSpecial

theorem number_none {a : Fl} : number a = none ↔ a = .nan := by
  cases a with
  | nan => simp [number]
  | inf n => cases n <;> simp [number]
  | fin n m => cases n <;> simp [number]

theorem coe_lt (a b : ℤ) : (((a : ℤ) : WithTop ℤ) : Ext) < ((b : ℤ) : WithTop ℤ) ↔ a < b := by
  rw [WithBot.coe_lt_coe, WithTop.coe_lt_coe]

theorem coe_eq (a b : ℤ) : (((a : ℤ) : WithTop ℤ) : Ext) = ((b : ℤ) : WithTop ℤ) ↔ a = b := by
  rw [WithBot.coe_inj, WithTop.coe_inj]

theorem coe_lt_top (a : ℤ) : (((a : ℤ) : WithTop ℤ) : Ext) < (⊤ : WithTop ℤ) := by
  rw [WithBot.coe_lt_coe]
  exact WithTop.coe_lt_top a

theorem less_iff {a b : Fl} {x y : Ext} (ha : number a = some x) (hb : number b = some y) :
    less a b = true ↔ x < y := by
  cases a with
  | nan => cases ha
  | inf m =>
    cases m <;> cases b with
    | nan => cases hb
    | inf n => cases n <;> cases ha <;> cases hb <;> simp [less]
    | fin n k =>
      cases n <;> cases ha <;> cases hb <;>
        first | exact iff_of_true rfl (WithBot.bot_lt_coe _) | exact iff_of_false Bool.noConfusion (coe_lt_top _).not_gt
  | fin m j =>
    cases m <;> cases b with
    | nan => cases hb
    | inf n => cases n <;> cases ha <;> cases hb <;> first | exact iff_of_true rfl (coe_lt_top _) | exact iff_of_false Bool.noConfusion not_lt_bot
    | fin n k =>
      cases n <;> cases ha <;> cases hb <;> simp only [less, coe_lt, decide_eq_true_eq] <;> simp <;> omega

theorem equal_iff {a b : Fl} {x y : Ext} (ha : number a = some x) (hb : number b = some y) :
    equal a b = true ↔ x = y := by
  cases a with
  | nan => cases ha
  | inf m =>
    cases m <;> cases b with
    | nan => cases hb
    | inf n => cases n <;> cases ha <;> cases hb <;> simp [equal]
    | fin n k =>
      cases n <;> cases ha <;> cases hb <;>
        first
        | exact iff_of_false Bool.noConfusion (WithBot.bot_lt_coe _).ne
        | exact iff_of_false Bool.noConfusion (coe_lt_top _).ne'
  | fin m j =>
    cases m <;> cases b with
    | nan => cases hb
    | inf n =>
      cases n <;> cases ha <;> cases hb <;>
        first
        | exact iff_of_false Bool.noConfusion (WithBot.bot_lt_coe _).ne'
        | exact iff_of_false Bool.noConfusion (coe_lt_top _).ne
    | fin n k =>
      cases n <;> cases ha <;> cases hb <;> (simp only [equal, coe_eq]; simp <;> omega)

theorem less_nan (a : Fl) : less a .nan = false ∧ less .nan a = false := by
  cases a with
  | nan => exact ⟨rfl, rfl⟩
  | inf n => cases n <;> exact ⟨rfl, rfl⟩
  | fin n m => cases n <;> exact ⟨rfl, rfl⟩

theorem equal_nan (a : Fl) : equal a .nan = false ∧ equal .nan a = false := by
  cases a <;> exact ⟨rfl, rfl⟩

theorem number_some {a : Fl} (h : a ≠ .nan) : ∃ x, number a = some x := by
  cases hn : number a with
  | none => exact absurd (number_none.1 hn) h
  | some x => exact ⟨x, rfl⟩

/-- A comparison by keys, the greatest of which is that of NaN. -/
structure Keyed (L : Type) [LinearOrder L] (lt : Fl → Fl → Bool) where
  key : Fl → WithTop L
  top : ∀ a, key a = ⊤ ↔ a = .nan
  less : ∀ a b, b ≠ .nan → (lt a b = true ↔ key a < key b)

/-- The comparison of the keys. -/
noncomputable def Keyed.lt {L : Type} [LinearOrder L] {lt : Fl → Fl → Bool} (k : Keyed L lt) (a b : Fl) : Bool :=
  decide (k.key a < k.key b)

theorem Keyed.swo {L : Type} [LinearOrder L] {lt : Fl → Fl → Bool} (k : Keyed L lt) :
    SeqSpec.StrictWeakOrder k.lt where
  irrefl a := by simp [Keyed.lt]
  trans a b c := by
    simp only [Keyed.lt, decide_eq_true_eq]
    exact lt_trans
  incomp a b c := by
    simp only [Keyed.lt, decide_eq_false_iff_not, not_lt]
    exact fun h1 h2 h3 h4 => ⟨h3.trans h1, h2.trans h4⟩

theorem Keyed.loop {L : Type} [LinearOrder L] {lt : Fl → Fl → Bool} (k : Keyed L lt) (xs : List Fl) (i j : Nat) (y : Fl)
    (hy : y ≠ .nan) : Seq.minLoop lt xs i (some (j, y)) = Seq.minLoop k.lt xs i (some (j, y)) := by
  induction xs generalizing i j y with
  | nil => rfl
  | cons x xs ih =>
    have e : lt x y = k.lt x y := by
      rw [Bool.eq_iff_iff, k.less x y hy]
      simp [Keyed.lt]
    simp only [Seq.minLoop, e]
    split
    · rename_i h
      refine ih _ _ _ (fun hx => ?_)
      subst hx
      simp only [Keyed.lt, decide_eq_true_eq, (k.top .nan).2 rfl] at h
      exact not_top_lt h
    · exact ih _ _ _ hy

theorem Keyed.minOf {L : Type} [LinearOrder L] {lt : Fl → Fl → Bool} (k : Keyed L lt) (x : Fl) (xs : List Fl)
    (hx : x ≠ .nan) : Seq.minOf lt (x :: xs) = Seq.minOf k.lt (x :: xs) := by
  simp only [Seq.minOf, Seq.minLoop, k.loop xs _ _ _ hx]

/-- Ascending order. -/
def ascending : Keyed Ext less where
  key := number
  top a := number_none
  less a b hb := by
    obtain ⟨y, hy⟩ := number_some hb
    by_cases ha : a = .nan
    · subst ha
      rw [(less_nan b).2]
      exact iff_of_false Bool.noConfusion not_top_lt
    · obtain ⟨x, hx⟩ := number_some ha
      rw [less_iff hx hy, hx, hy]
      exact WithTop.coe_lt_coe.symm

/-- Descending order. -/
def descending : Keyed Extᵒᵈ (fun a b => less b a) where
  key a := (number a).map OrderDual.toDual
  top a := by
    rw [← number_none]
    exact Option.map_eq_none_iff
  less a b hb := by
    obtain ⟨y, hy⟩ := number_some hb
    by_cases ha : a = .nan
    · subst ha
      rw [(less_nan b).1]
      exact iff_of_false Bool.noConfusion not_top_lt
    · obtain ⟨x, hx⟩ := number_some ha
      rw [less_iff hy hx, hx, hy]
      exact (WithTop.coe_lt_coe (α := Extᵒᵈ)).symm

theorem maxOf_flip {α : Type} (lt : α → α → Bool) (xs : List α) :
    Seq.maxOf lt xs = Seq.minOf (fun a b => lt b a) xs := by
  have h : ∀ (xs : List α) (i : Nat) (r : Option (Nat × α)),
      Seq.maxLoop lt xs i r = Seq.minLoop (fun a b => lt b a) xs i r := by
    intro xs
    induction xs with
    | nil => intros; rfl
    | cons x xs ih =>
      intro i r
      cases r with
      | none => exact ih _ _
      | some r => exact ih _ _
  rw [Seq.maxOf, Seq.minOf, h]

theorem minOf_nan (lt : Fl → Fl → Bool) (h : ∀ a, lt a .nan = false) (xs : List Fl) :
    Seq.minOf lt (.nan :: xs) = .ok (0, .nan) := by
  have key : ∀ (xs : List Fl) (i : Nat), Seq.minLoop lt xs i (some (0, .nan)) = some (0, .nan) := by
    intro xs
    induction xs with
    | nil => intro i; rfl
    | cons x xs ih =>
      intro i
      simp only [Seq.minLoop, h x]
      exact ih _
  simp only [Seq.minOf, Seq.minLoop, key]

end Pluto.FloatSpecial
