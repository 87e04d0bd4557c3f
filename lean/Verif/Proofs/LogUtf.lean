import Verif.Spec.LogUtf
import Verif.Proofs.UtfStr
import Verif.Proofs.LogRead

/-!
# Lemmas on logs in UTF-8 (C128)
-/

namespace Pluto.LogUtf

open Spec LogUtfSpec Unicode UtfProofs LogText LogTextSpec LogReadSpec LogRead

theorem utf8_nil : Utf8 [] := ⟨[], rfl⟩

theorem utf8_append {a b : List Char} (ha : Utf8 a) (hb : Utf8 b) : Utf8 (a ++ b) := by
  obtain ⟨s, hs⟩ := ha
  obtain ⟨t, ht⟩ := hb
  exact ⟨s ++ t, by rw [encode_append, List.map_append, List.map_append, hs, ht]⟩

theorem utf8_ascii {c : Char} (hc : c.toNat < 0x80) : Utf8 [c] := by
  refine ⟨[c], ?_⟩
  rw [encode_cons, enc8_eq, if_pos hc]
  simp only [encode_nil, List.append_nil, List.map_cons, List.map_nil]
  rw [u8_toNat (by omega)]

theorem selfSync8 : SelfSync enc8 := selfSync_of_leads leads8 prefixFree8

/-- Text is cut at an ASCII character into text. -/
theorem utf8_split {a b : List Char} {c : Char} (hc : c.toNat < 0x80) :
    Utf8 (a ++ c :: b) ↔ Utf8 a ∧ Utf8 b := by
  constructor
  · rintro ⟨t, e⟩
    rw [List.map_append, List.map_cons] at e
    obtain ⟨A, B', h1, h2, h3⟩ := List.map_eq_append_iff.1 e.symm
    obtain ⟨u, B, rfl, h4, h5⟩ := List.map_eq_cons_iff.1 h3
    have hu : enc8 c = [u] := by
      rw [enc8_eq, if_pos hc, ← h4, UInt8.ofNat_toNat]
    obtain ⟨s₁, s₂, -, h6, h7⟩ := selfSync8 t [c] A B (by simp) (by rw [h1]; simp [encode, hu])
    exact ⟨⟨s₁, by rw [← h6, h2]⟩, ⟨s₂, by rw [← h7, h5]⟩⟩
  · rintro ⟨ha, hb⟩
    exact utf8_append ha (utf8_append (utf8_ascii hc) hb)

/-- All characters are ASCII. -/
def Ascii (t : List Char) : Prop := ∀ c ∈ t, c.toNat < 0x80

theorem ascii_append {a b : List Char} (ha : Ascii a) (hb : Ascii b) : Ascii (a ++ b) := by
  intro c hc
  rcases List.mem_append.1 hc with h | h
  · exact ha c h
  · exact hb c h

theorem ascii_replicate {n : Nat} {c : Char} (hc : c.toNat < 0x80) : Ascii (List.replicate n c) := by
  intro d hd; rw [List.eq_of_mem_replicate hd]; exact hc

theorem ascii_decimal (n : Nat) : Ascii (decimal n) := by
  intro c hc
  have := decimal_digit hc
  simp only [Char.isDigit, Bool.and_eq_true, decide_eq_true_eq] at this
  have h2 : c.val.toNat ≤ 57 := by simpa using UInt32.le_iff_toNat_le.1 this.2
  have : c.toNat = c.val.toNat := rfl
  omega

theorem ascii_two (n : Nat) : Ascii (two n) := by
  unfold two
  split
  · exact ascii_append (a := ['0']) (by intro c hc; rw [List.mem_singleton.1 hc]; decide) (ascii_decimal n)
  · exact ascii_decimal n

theorem ascii_title (l : Int) : Ascii (title l) := by
  unfold title Ascii
  repeat' split
  all_goals decide

theorem utf8_of_ascii {t : List Char} (h : Ascii t) : Utf8 t := by
  induction t with
  | nil => exact utf8_nil
  | cons c t ih =>
    exact utf8_append (a := [c]) (utf8_ascii (h c (by simp))) (ih fun d hd => h d (by simp [hd]))

theorem utf8_ascii_append {a b : List Char} (h : Ascii a) : Utf8 (a ++ b) ↔ Utf8 b := by
  induction a with
  | nil => rfl
  | cons c a ih =>
    have := utf8_split (a := []) (b := a ++ b) (h c (by simp))
    rw [List.cons_append]
    exact this.trans ⟨fun x => (ih fun d hd => h d (by simp [hd])).1 x.2,
      fun x => ⟨utf8_nil, (ih fun d hd => h d (by simp [hd])).2 x⟩⟩

theorem utf8_append_ascii {a b : List Char} (h : Ascii b) : Utf8 (a ++ b) ↔ Utf8 a := by
  cases b with
  | nil => rw [List.append_nil]
  | cons c b =>
    rw [utf8_split (h c (by simp))]
    exact ⟨And.left, fun x => ⟨x, utf8_of_ascii fun d hd => h d (by simp [hd])⟩⟩

theorem ascii_timeColumn (log : Record) : Ascii (timeColumn log) := by
  have one : ∀ c : Char, c.toNat < 0x80 → ∀ {t}, Ascii t → Ascii (c :: t) := by
    intro c hc t ht d hd
    rcases List.mem_cons.1 hd with rfl | h
    · exact hc
    · exact ht d h
  unfold timeColumn timeText
  refine ascii_append ?_ (ascii_append (ascii_replicate (by decide)) (ascii_decimal _))
  simp only [List.append_assoc, List.cons_append]
  exact ascii_append (ascii_decimal _) (one _ (by decide) (ascii_append (ascii_two _) (one _ (by decide)
    (ascii_append (ascii_two _) (one _ (by decide) (ascii_append (ascii_two _) (one _ (by decide)
      (ascii_append (ascii_two _) (one _ (by decide) (ascii_append (ascii_two _) (one _ (by decide)
        (fun c hc => absurd hc (by simp)))))))))))))

theorem ascii_flushRight {n k : Nat} : Ascii (flushRight k (decimal n)) :=
  ascii_append (ascii_replicate (by decide)) (ascii_decimal n)

theorem utf8_flushLeft {n : Nat} {t : List Char} : Utf8 (flushLeft n t) ↔ Utf8 t :=
  utf8_append_ascii (ascii_replicate (by decide))

theorem utf8_lineOf (hide : Bool) (log : Record) : Utf8 (lineOf hide log) ↔
    Utf8 log.message ∧ (hide = false → Utf8 ((lastPart log.file).take 20) ∧ Utf8 (log.function.take 20)) := by
  have ha : Utf8 (flushLeft 8 (title log.level)) := utf8_of_ascii
    (ascii_append (ascii_title _) (ascii_replicate (by decide)))
  have hr : ∀ k n, Utf8 (flushRight k (decimal n)) := fun k n => utf8_of_ascii ascii_flushRight
  have bar : '|'.toNat < 0x80 := by decide
  have ht := utf8_of_ascii (ascii_timeColumn log)
  unfold lineOf
  rw [utf8_split bar, utf8_split bar, utf8_split bar]
  cases hide with
  | true => simp [ht, hr, ha]
  | false =>
    rw [if_neg (by simp), utf8_split bar, utf8_split bar, utf8_split bar]
    simp only [ht, hr, ha, true_and, forall_const, utf8_flushLeft (n := 20)]
    exact ⟨fun x => ⟨x.2.2, x.1, x.2.1⟩, fun x => ⟨x.2.1, x.2.2, x.1⟩⟩

/-- What has to be text for an entry to be written as text. -/
theorem utf8_body (hide : Bool) (logs : List Record) :
    Utf8 (body hide logs) ↔ ∀ log ∈ logs, Utf8 (lineOf hide log) := by
  induction logs with
  | nil => simp [body, utf8_nil]
  | cons log logs ih =>
    have e : body hide (log :: logs) = lineOf hide log ++ '\n' :: body hide logs := by simp [body]
    rw [e, utf8_split (by decide), ih]
    simp

set_option maxRecDepth 8000 in
theorem ascii_head (hide wh : Bool) (text : List Char) : Ascii (head hide wh text) := by
  unfold head
  split
  · unfold Ascii
    cases hide <;> decide
  · intro c hc; cases hc

/-- New entries after a text. -/
theorem utf8_after (hide : Bool) (text : List Char) (log : Record) (logs : List Record) :
    Utf8 (text ++ body hide (log :: logs)) ↔ Utf8 text ∧ Utf8 (body hide (log :: logs)) := by
  have hne : timeColumn log ≠ [] := by simp [timeColumn, timeText]
  obtain ⟨c, t, e⟩ := List.exists_cons_of_ne_nil hne
  have hc := ascii_timeColumn log c (by simp [e])
  obtain ⟨r, e⟩ : ∃ r, body hide (log :: logs) = c :: r := by
    simp only [body, List.flatMap_cons, lineOf, e, List.cons_append]
    exact ⟨_, rfl⟩
  have h2 := utf8_split (a := []) (b := r) hc
  rw [List.nil_append] at h2
  rw [e, utf8_split hc, h2]
  simp [utf8_nil]

/-! ## Where text may be cut -/

theorem utf8_take {t : List Char} (h : Utf8 t) (n : Nat) :
    Utf8 (t.take n) ↔ ∀ c, t[n]? = some c → ¬ Continues c := by
  obtain ⟨s, e⟩ := h
  have e2 : (t.take n).map Char.toNat = ((encode enc8 s).take n).map UInt8.toNat := by
    rw [List.map_take, List.map_take, e]
  have inj : ∀ a b : List UInt8, a.map UInt8.toNat = b.map UInt8.toNat → a = b := by
    intro a b hab
    exact List.map_inj_right (fun x y h => UInt8.toNat_inj.1 h) |>.1 hab
  have hget : ∀ c, t[n]? = some c → ∃ u, (encode enc8 s)[n]? = some u ∧ u.toNat = c.toNat := by
    intro c hc
    have := congrArg (·[n]?) e
    simp only [List.getElem?_map, hc, Option.map_some] at this
    obtain ⟨u, hu, h2⟩ := Option.map_eq_some_iff.1 this.symm
    exact ⟨u, hu, h2⟩
  have hlead : ∀ u : UInt8, lead8 u = true ↔ ¬ (0x80 ≤ u.toNat ∧ u.toNat < 0xC0) := by
    intro u
    unfold lead8
    rw [decide_eq_true_eq]
    omega
  constructor
  · rintro ⟨s₁, h1⟩ c hc
    obtain ⟨u, hu, h2⟩ := hget c hc
    rw [e2] at h1
    have h3 := inj _ _ h1
    have h4 : encode enc8 s = encode enc8 s₁ ++ (encode enc8 s).drop n := by
      rw [← h3, List.take_append_drop]
    obtain ⟨s₂, -, h5⟩ := prefix_text enc8_ne_nil prefixFree8 s₁ s _ h4
    have h6 : ((encode enc8 s).drop n).head? = some u := by rw [List.head?_drop, hu]
    rw [h5] at h6
    unfold Continues
    rw [← h2, ← hlead]
    cases s₂ with
    | nil => simp [encode_nil] at h6
    | cons d s₂ =>
      obtain ⟨l, r, h7, h8, -⟩ := leads8 d
      rw [encode_cons, h7] at h6
      simp only [List.cons_append, List.head?_cons, Option.some.injEq] at h6
      rw [← h6]; exact h8
  · intro hc
    obtain ⟨s₁, s₂, -, h1, -⟩ := boundary leads8 s ((encode enc8 s).take n) ((encode enc8 s).drop n) (by
      intro u r hu
      have h6 : (encode enc8 s)[n]? = some u := by rw [← List.head?_drop, hu]; rfl
      rw [hlead]
      have h7 : t[n]?.map Char.toNat = some u.toNat := by
        rw [← List.getElem?_map, e, List.getElem?_map, h6]; rfl
      obtain ⟨c, h8, h9⟩ := Option.map_eq_some_iff.1 h7
      rw [← h9]
      exact hc c h8) (List.take_append_drop ..).symm
    exact ⟨s₁, by rw [e2, h1]⟩

theorem lastPart_split (path : List Char) : ∃ dir, path = dir ++ lastPart path ∧
    (dir = [] ∨ ∃ d sep, dir = d ++ [sep] ∧ (sep = '/' ∨ sep = '\\')) := by
  let p : Char → Bool := fun c => decide (c ≠ '/' ∧ c ≠ '\\')
  have h := List.takeWhile_append_dropWhile (p := p) (l := path.reverse)
  refine ⟨(path.reverse.dropWhile p).reverse, ?_, ?_⟩
  · show path = _ ++ (path.reverse.takeWhile p).reverse
    rw [← List.reverse_append, h, List.reverse_reverse]
  · cases hd : path.reverse.dropWhile p with
    | nil => left; rfl
    | cons c r =>
      right
      refine ⟨r.reverse, c, by simp, ?_⟩
      have := List.head?_dropWhile_not p path.reverse
      rw [hd] at this
      simp [p] at this
      by_cases h1 : c = '/'
      · exact .inl h1
      · exact .inr (this h1)

theorem utf8_lastPart {path : List Char} (h : Utf8 path) : Utf8 (lastPart path) := by
  obtain ⟨dir, e, rfl | ⟨d, sep, rfl, hs⟩⟩ := lastPart_split path
  · rw [e] at h; exact h
  · rw [e, List.append_assoc] at h
    have : sep.toNat < 0x80 := by rcases hs with rfl | rfl <;> decide
    exact ((utf8_split (a := d) this).1 h).2

end Pluto.LogUtf
