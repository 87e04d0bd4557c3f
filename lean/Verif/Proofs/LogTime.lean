import Verif.Model.LogTime
import Verif.Spec.LogTime
import Verif.Proofs.LogRead

/-!
# Lemmas on dates and times
-/

namespace Pluto.LogTime
open LogText LogTimeSpec

theorem leap_iff (y : Nat) : leap y = true ↔ LeapYear y := by
  simp only [leap, LeapYear, Bool.and_eq_true, Bool.or_eq_true, beq_iff_eq, bne_iff_ne]
  omega

theorem next_div (y : Nat) : (y + 1 + 3) / 4 = (y + 3) / 4 + (if y % 4 = 0 then 1 else 0) ∧
    (y + 1 + 99) / 100 = (y + 99) / 100 + (if y % 100 = 0 then 1 else 0) ∧
    (y + 1 + 399) / 400 = (y + 399) / 400 + (if y % 400 = 0 then 1 else 0) := by
  refine ⟨?_, ?_, ?_⟩ <;> split <;> omega

theorem yearDays_eq (y : Nat) : daysBeforeYear (y + 1) = daysBeforeYear y + yearDays y := by
  obtain ⟨h4, h100, h400⟩ := next_div y
  have hle : (y + 99) / 100 ≤ (y + 3) / 4 + 365 * y := by omega
  unfold daysBeforeYear yearDays leap
  rw [h4, h100, h400]
  generalize (y + 99) / 100 = b at *
  generalize (y + 3) / 4 = a at *
  generalize (y + 399) / 400 = c at *
  clear h4 h100 h400
  by_cases e4 : y % 4 = 0
  · by_cases e100 : y % 100 = 0
    · by_cases e400 : y % 400 = 0 <;> simp [e4, e100, e400] <;> omega
    · have e400 : ¬ y % 400 = 0 := by omega
      simp [e4, e100, e400]; omega
  · have e100 : ¬ y % 100 = 0 := by omega
    have e400 : ¬ y % 400 = 0 := by omega
    simp [e4, e100, e400]; omega

theorem yearFrom_spec : ∀ fuel y n, daysBeforeYear y + n < daysBeforeYear (y + fuel) →
    ∃ y' d, yearFrom fuel y n = (y', d) ∧ d < yearDays y' ∧ daysBeforeYear y + n = daysBeforeYear y' + d := by
  intro fuel
  induction fuel with
  | zero => intro y n h; simp only [Nat.add_zero] at h; omega
  | succ fuel ih =>
    intro y n h
    unfold yearFrom
    split
    · rename_i hn; exact ⟨y, n, rfl, hn, rfl⟩
    · rename_i hn
      have e := yearDays_eq y
      obtain ⟨y', d, h1, h2, h3⟩ := ih (y + 1) (n - yearDays y) (by
        rw [show y + 1 + fuel = y + (fuel + 1) by omega]; omega)
      exact ⟨y', d, h1, h2, by omega⟩

theorem daysBeforeYear_cycle (e y : Nat) : daysBeforeYear (400 * e + y) = 146097 * e + daysBeforeYear y := by
  unfold daysBeforeYear
  omega

theorem yearDays_cycle (e y : Nat) : yearDays (400 * e + y) = yearDays y := by
  have h1 := yearDays_eq (400 * e + y)
  have h2 := yearDays_eq y
  have h3 := daysBeforeYear_cycle e y
  have h4 := daysBeforeYear_cycle e (y + 1)
  rw [show 400 * e + (y + 1) = 400 * e + y + 1 by omega] at h4
  omega

theorem monthFrom_list : ∀ ls m n, n < ls.sum →
    ∃ i r, monthFrom ls m n = (m + i, r) ∧ i < ls.length ∧ r < ls.getD i 0 ∧ n = (ls.take i).sum + r := by
  intro ls
  induction ls with
  | nil => intro m n h; simp at h
  | cons l ls ih =>
    intro m n h
    unfold monthFrom
    split
    · rename_i hn; exact ⟨0, n, rfl, by simp, by simpa using hn, by simp⟩
    · rename_i hn
      rw [List.sum_cons] at h
      obtain ⟨i, r, h1, h2, h3, h4⟩ := ih (m + 1) (n - l) (by omega)
      refine ⟨i + 1, r, by rw [h1]; simp [Nat.add_assoc, Nat.add_comm 1], by simpa using h2, by simpa using h3, ?_⟩
      rw [List.take_succ_cons, List.sum_cons]
      omega

theorem monthFrom_spec (y d : Nat) (h : d < yearDays y) :
    ∃ m r, monthFrom (monthLengths y) 1 d = (m, r) ∧ 1 ≤ m ∧ m ≤ 12 ∧ r < daysInMonth y m ∧
      d = daysBeforeMonth y m + r := by
  have hl := leap_iff y
  obtain ⟨i, r, h1, h2, h3, h4⟩ := monthFrom_list (monthLengths y) 1 d (by
    unfold yearDays at h
    unfold monthLengths
    cases e : leap y <;> rw [e] at h <;> simpa using h)
  refine ⟨1 + i, r, h1, by omega, ?_, ?_⟩
  · simp [monthLengths] at h2; omega
  have hi : i = 0 ∨ i = 1 ∨ i = 2 ∨ i = 3 ∨ i = 4 ∨ i = 5 ∨ i = 6 ∨ i = 7 ∨ i = 8 ∨ i = 9 ∨ i = 10 ∨ i = 11 := by
    simp [monthLengths] at h2; omega
  clear h1 h2 h
  unfold monthLengths at h3 h4
  cases e : leap y
  · have hL : ¬ LeapYear y := fun h => by rw [hl.2 h] at e; cases e
    rw [e] at h3 h4
    rcases hi with rfl | rfl | rfl | rfl | rfl | rfl | rfl | rfl | rfl | rfl | rfl | rfl <;>
      simp at h3 h4 <;> simp [daysInMonth, daysBeforeMonth, hL] <;> omega
  · have hL := hl.1 e
    rw [e] at h3 h4
    rcases hi with rfl | rfl | rfl | rfl | rfl | rfl | rfl | rfl | rfl | rfl | rfl | rfl <;>
      simp at h3 h4 <;> simp [daysInMonth, daysBeforeMonth, hL] <;> omega

/-- The calendar date of a second exists and is that second. -/
theorem gmTime_spec (s : Int) (h : -62167219200 ≤ s) :
    ∃ tm, gmTime s = some tm ∧ Exists tm ∧ seconds tm = s := by
  have hs : ¬ (s + 719528 * 86400 < 0) := by omega
  unfold gmTime
  simp only [if_neg hs]
  generalize hn : (s + 719528 * 86400).toNat = n
  have hc : daysBeforeYear (0 + 400) = 146097 := by decide
  have h0 : daysBeforeYear 0 = 0 := by decide
  obtain ⟨y, d, e1, e2, e3⟩ := yearFrom_spec 400 0 (n / 86400 % 146097) (by omega)
  simp only [e1]
  have hd : d < yearDays (400 * (n / 86400 / 146097) + y) := by rw [yearDays_cycle]; exact e2
  obtain ⟨m, r, f1, f2, f3, f4, f5⟩ := monthFrom_spec _ d hd
  simp only [f1]
  refine ⟨_, rfl, ⟨⟨f2, f3⟩, ⟨by simp, f4⟩, ?_, ?_, ?_⟩, ?_⟩
  · show n % 86400 / 3600 < 24; omega
  · show n % 86400 / 60 % 60 < 60; omega
  · show n % 86400 % 60 < 60; omega
  · have hy := daysBeforeYear_cycle (n / 86400 / 146097) y
    simp only [seconds, hy, Nat.add_sub_cancel]
    omega

theorem gmTime_none {s : Int} (h : s < -62167219200) : gmTime s = none := by
  have hs : s + 719528 * 86400 < 0 := by omega
  simp only [gmTime, if_pos hs]

theorem gmTime_some {s : Int} {tm : Tm} (h : gmTime s = some tm) : Exists tm ∧ seconds tm = s := by
  by_cases hs : s < -62167219200
  · rw [gmTime_none hs] at h; cases h
  · obtain ⟨tm', e, h1, h2⟩ := gmTime_spec s (by omega)
    rw [e] at h; cases h
    exact ⟨h1, h2⟩

/-! ## Order of dates -/

theorem daysBeforeYear_mono {y y' : Nat} (h : y < y') : daysBeforeYear y + yearDays y ≤ daysBeforeYear y' := by
  obtain ⟨k, rfl⟩ : ∃ k, y' = y + 1 + k := ⟨y' - (y + 1), by omega⟩
  clear h
  induction k with
  | zero => rw [Nat.add_zero, yearDays_eq]
  | succ k ih => rw [← Nat.add_assoc, yearDays_eq]; omega

theorem month_next {y m : Nat} (h1 : 1 ≤ m) (h2 : m ≤ 11) :
    daysBeforeMonth y (m + 1) = daysBeforeMonth y m + daysInMonth y m := by
  have : m = 1 ∨ m = 2 ∨ m = 3 ∨ m = 4 ∨ m = 5 ∨ m = 6 ∨ m = 7 ∨ m = 8 ∨ m = 9 ∨ m = 10 ∨ m = 11 := by omega
  by_cases hL : LeapYear y <;>
    rcases this with rfl | rfl | rfl | rfl | rfl | rfl | rfl | rfl | rfl | rfl | rfl <;>
      simp [daysBeforeMonth, daysInMonth, hL]

theorem month_mono {y m : Nat} (h1 : 1 ≤ m) : ∀ k, m + 1 + k ≤ 12 →
    daysBeforeMonth y m + daysInMonth y m ≤ daysBeforeMonth y (m + 1 + k) := by
  intro k
  induction k with
  | zero => intro h; rw [Nat.add_zero, month_next h1 (by omega)]
  | succ k ih =>
    intro h
    have := ih (by omega)
    rw [← Nat.add_assoc, month_next (by omega) (by omega)]
    omega

theorem month_last {y m : Nat} (h1 : 1 ≤ m) (h2 : m ≤ 12) :
    daysBeforeMonth y m + daysInMonth y m ≤ yearDays y := by
  have h12 : daysBeforeMonth y 12 + daysInMonth y 12 = yearDays y := by
    have := leap_iff y
    unfold yearDays
    by_cases hL : LeapYear y
    · simp [daysBeforeMonth, daysInMonth, hL, this.2 hL]
    · have : leap y = false := by
        cases e : leap y
        · rfl
        · exact absurd (this.1 e) hL
      simp [daysBeforeMonth, daysInMonth, hL, this]
  by_cases e : m = 12
  · subst e; omega
  · have := month_mono (y := y) h1 (11 - m) (by omega)
    rw [show m + 1 + (11 - m) = 12 by omega] at this
    omega

theorem fields_lt {a b : Tm} {u v : Nat} (ha : Exists a) (hb : Exists b)
    (h : seconds a < seconds b ∨ (seconds a = seconds b ∧ u < v)) :
    a.year < b.year ∨ (a.year = b.year ∧ (a.month < b.month ∨ (a.month = b.month ∧ (a.day < b.day ∨ (a.day = b.day ∧
      (a.hour < b.hour ∨ (a.hour = b.hour ∧ (a.minute < b.minute ∨ (a.minute = b.minute ∧
        (a.second < b.second ∨ (a.second = b.second ∧ u < v))))))))))) := by
  obtain ⟨am, ad, ah, ai, as⟩ := ha
  obtain ⟨bm, bd, bh, bi, bs⟩ := hb
  have key : seconds a ≤ seconds b := by omega
  have la := month_last (y := a.year) am.1 am.2
  have lb := month_last (y := b.year) bm.1 bm.2
  unfold seconds at h key
  rcases Nat.lt_trichotomy a.year b.year with hy | hy | hy
  · exact .inl hy
  · refine .inr ⟨hy, ?_⟩
    rw [hy] at h key ad la
    rcases Nat.lt_trichotomy a.month b.month with hm | hm | hm
    · exact .inl hm
    · refine .inr ⟨hm, ?_⟩
      rw [hm] at h key ad la
      omega
    · exfalso
      have := month_mono (y := b.year) bm.1 (a.month - b.month - 1) (by omega)
      rw [show b.month + 1 + (a.month - b.month - 1) = a.month by omega] at this
      omega
  · exfalso
    have := daysBeforeYear_mono hy
    omega

/-! ## Order of texts -/

theorem lt_append {a b : List Char} (s t : List Char) (hl : a.length = b.length) (h : a < b) : a ++ s < b ++ t := by
  induction a generalizing b with
  | nil => cases b with
    | nil => exact absurd h (List.lt_irrefl _)
    | cons => simp at hl
  | cons x a ih => cases b with
    | nil => simp at hl
    | cons y b =>
      rcases List.cons_lt_cons_iff.1 h with h | ⟨rfl, h'⟩
      · exact List.cons_lt_cons_iff.2 (.inl h)
      · exact List.cons_lt_cons_iff.2 (.inr ⟨rfl, ih (by simpa using hl) h'⟩)

theorem append_lt {s t : List Char} (a : List Char) (h : s < t) : a ++ s < a ++ t := by
  induction a with
  | nil => exact h
  | cons x a ih => exact List.cons_lt_cons_iff.2 (.inr ⟨rfl, ih⟩)

open NumSpec

theorem foldl_value (s : List Char) : ∀ n, s.foldl (fun acc c => acc * 10 + digitValue c) n =
    n * 10 ^ s.length + value 10 s := by
  unfold value
  induction s with
  | nil => intro n; simp
  | cons c s ih =>
    intro n
    simp only [List.foldl_cons, List.length_cons]
    rw [ih, ih (0 * 10 + digitValue c), Nat.pow_succ, Nat.add_mul, Nat.add_mul]
    simp [Nat.mul_assoc, Nat.mul_comm 10, Nat.add_assoc]

theorem value_cons (c : Char) (s : List Char) : value 10 (c :: s) = digitValue c * 10 ^ s.length + value 10 s := by
  have := foldl_value s (0 * 10 + digitValue c)
  rw [value, List.foldl_cons, this]
  simp

theorem digit_bounds {c : Char} (h : c.isDigit = true) : digitValue c = c.toNat - 48 ∧ 48 ≤ c.toNat ∧ c.toNat ≤ 57 := by
  have h' := h
  simp only [Char.isDigit, Bool.and_eq_true, decide_eq_true_eq] at h'
  refine ⟨?_, ?_, ?_⟩
  · simp [digitValue, h]
  · exact h'.1
  · exact h'.2

theorem value_bound {s : List Char} (h : ∀ c ∈ s, c.isDigit = true) : value 10 s < 10 ^ s.length := by
  induction s with
  | nil => simp [value]
  | cons c s ih =>
    have hc := digit_bounds (h c (by simp))
    have := ih fun d hd => h d (by simp [hd])
    rw [value_cons, List.length_cons, Nat.pow_succ]
    have : digitValue c * 10 ^ s.length ≤ 9 * 10 ^ s.length := Nat.mul_le_mul_right _ (by omega)
    omega

/-- Numerals of the same length are ordered as their values. -/
theorem digits_lt {a b : List Char} (hl : a.length = b.length) (ha : ∀ c ∈ a, c.isDigit = true)
    (hb : ∀ c ∈ b, c.isDigit = true) (h : value 10 a < value 10 b) : a < b := by
  induction a generalizing b with
  | nil => cases b with
    | nil => simp at h
    | cons => simp at hl
  | cons x a ih => cases b with
    | nil => simp at hl
    | cons y b =>
      have hx := digit_bounds (ha x (by simp))
      have hy := digit_bounds (hb y (by simp))
      have hl' : a.length = b.length := by simpa using hl
      have va := value_bound (s := a) fun c hc => ha c (by simp [hc])
      have vb := value_bound (s := b) fun c hc => hb c (by simp [hc])
      rw [value_cons, value_cons, hl'] at h
      rw [hl'] at va
      refine List.cons_lt_cons_iff.2 ?_
      rcases Nat.lt_trichotomy x.toNat y.toNat with hxy | hxy | hxy
      · exact .inl hxy
      · have e : x = y := Char.toNat_inj.1 hxy
        subst e
        exact .inr ⟨rfl, ih hl' (fun c hc => ha c (by simp [hc])) (fun c hc => hb c (by simp [hc])) (by omega)⟩
      · exfalso
        have : (digitValue y + 1) * 10 ^ b.length ≤ digitValue x * 10 ^ b.length :=
          Nat.mul_le_mul_right _ (by omega)
        rw [Nat.add_mul] at this
        omega

/-- A column of numerals decides, or what follows it. -/
theorem field_lt (f : Nat → List Char) {n m : Nat} {s t : List Char} (hl : (f n).length = (f m).length)
    (hd : ∀ n, ∀ c ∈ f n, c.isDigit = true) (hv : ∀ n, value 10 (f n) = n) (h : n < m ∨ (n = m ∧ s < t)) :
    f n ++ s < f m ++ t := by
  rcases h with h | ⟨rfl, h⟩
  · exact lt_append s t hl (digits_lt hl (hd n) (hd m) (by rw [hv, hv]; exact h))
  · exact append_lt _ h

theorem cons_lt (c : Char) {s t : List Char} (h : s < t) : c :: s < c :: t := append_lt [c] h

/-- Six digits. -/
def six (n : Nat) : List Char := List.replicate (6 - (decimal n).length) '0' ++ decimal n

theorem six_digit (n : Nat) : ∀ c ∈ six n, c.isDigit = true := by
  intro c hc
  rcases List.mem_append.1 hc with hc | hc
  · rw [(List.mem_replicate.1 hc).2]; rfl
  · exact LogRead.decimal_digit hc

theorem two_digit (n : Nat) : ∀ c ∈ two n, c.isDigit = true := by
  intro c hc
  unfold two at hc
  split at hc
  · rcases List.mem_cons.1 hc with rfl | hc
    · rfl
    · exact LogRead.decimal_digit hc
  · exact LogRead.decimal_digit hc

theorem six_length {n : Nat} (h : n < 1000000) : (six n).length = 6 := by
  have : (decimal n).length ≤ 6 := decimal_le (by omega) h
  simp [six]
  omega

theorem year_length {y : Nat} (h : 1000 ≤ y ∧ y < 10000) : (decimal y).length = 4 := by
  have h1 : (decimal y).length ≤ 4 := decimal_le (by omega) h.2
  have h2 : ¬ (decimal y).length ≤ 3 := fun hl => by
    have := (Nat.length_toDigits_le_iff (by omega) (by omega)).1 hl
    omega
  omega

theorem timeColumn_eq (log : Record) : LogTextSpec.timeColumn log = decimal log.localTime.year ++ ('-' ::
    (two log.localTime.month ++ ('-' :: (two log.localTime.day ++ (' ' :: (two log.localTime.hour ++ (':' ::
      (two log.localTime.minute ++ (':' :: (two log.localTime.second ++ ('.' ::
        (six (log.micros.tmod 1000000).natAbs ++ [])))))))))))) := by
  simp [LogTextSpec.timeColumn, timeText, six]

/-- A record with a time that can be shown. -/
structure Shown (log : Record) : Prop where
  year : 1000 ≤ log.localTime.year ∧ log.localTime.year < 10000
  valid : Exists log.localTime

theorem Shown.bounds {log : Record} (h : Shown log) : log.localTime.month < 100 ∧ log.localTime.day < 100 ∧
    log.localTime.hour < 100 ∧ log.localTime.minute < 100 ∧ log.localTime.second < 100 := by
  obtain ⟨⟨_, a⟩, ⟨_, b⟩, c, d, e⟩ := h.valid
  have : daysInMonth log.localTime.year log.localTime.month ≤ 31 := by
    unfold daysInMonth
    split
    · split <;> omega
    · split <;> omega
  refine ⟨?_, ?_, ?_, ?_, ?_⟩ <;> omega

theorem Shown.fits {log : Record} (h : Shown log) (hm : 0 ≤ log.micros) : LogReadSpec.TimeFits log :=
  have b := h.bounds
  ⟨h.year, b.1, b.2.1, b.2.2.1, b.2.2.2.1, b.2.2.2.2, hm⟩

theorem timeColumn_length' {log : Record} (h : Shown log) : (LogTextSpec.timeColumn log).length = 26 := by
  obtain ⟨b1, b2, b3, b4, b5⟩ := h.bounds
  rw [timeColumn_eq]
  simp only [List.length_append, List.length_cons, List.length_nil, year_length h.year, two_length b1, two_length b2,
    two_length b3, two_length b4, two_length b5]
  have : (six (log.micros.tmod 1000000).natAbs).length = 6 := six_length (by
    have := Int.tmod_lt_of_pos log.micros (b := 1000000) (by decide)
    have := Int.lt_tmod_of_pos log.micros (b := 1000000) (by decide)
    omega)
  omega

/-- Earlier local times have smaller time stamps. -/
theorem timeColumn_lt {a b : Record} (ha : Shown a) (hb : Shown b)
    (h : seconds a.localTime < seconds b.localTime ∨
      (seconds a.localTime = seconds b.localTime ∧
        (a.micros.tmod 1000000).natAbs < (b.micros.tmod 1000000).natAbs)) :
    LogTextSpec.timeColumn a < LogTextSpec.timeColumn b := by
  obtain ⟨a1, a2, a3, a4, a5⟩ := ha.bounds
  obtain ⟨b1, b2, b3, b4, b5⟩ := hb.bounds
  have bound : ∀ n : Int, (n.tmod 1000000).natAbs < 1000000 := fun n => by
    have := Int.tmod_lt_of_pos n (b := 1000000) (by decide)
    have := Int.lt_tmod_of_pos n (b := 1000000) (by decide)
    omega
  have f := fields_lt ha.valid hb.valid h
  rw [timeColumn_eq, timeColumn_eq]
  refine field_lt decimal (by rw [year_length ha.year, year_length hb.year]) (fun n c => LogRead.decimal_digit)
    LogRead.value_decimal (f.imp_right fun f => ⟨f.1, cons_lt _ ?_⟩)
  replace f := f.2
  refine field_lt two (by rw [two_length a1, two_length b1]) two_digit LogRead.value_two
    (f.imp_right fun f => ⟨f.1, cons_lt _ ?_⟩)
  replace f := f.2
  refine field_lt two (by rw [two_length a2, two_length b2]) two_digit LogRead.value_two
    (f.imp_right fun f => ⟨f.1, cons_lt _ ?_⟩)
  replace f := f.2
  refine field_lt two (by rw [two_length a3, two_length b3]) two_digit LogRead.value_two
    (f.imp_right fun f => ⟨f.1, cons_lt _ ?_⟩)
  replace f := f.2
  refine field_lt two (by rw [two_length a4, two_length b4]) two_digit LogRead.value_two
    (f.imp_right fun f => ⟨f.1, cons_lt _ ?_⟩)
  replace f := f.2
  refine field_lt two (by rw [two_length a5, two_length b5]) two_digit LogRead.value_two
    (f.imp_right fun f => ⟨f.1, cons_lt _ ?_⟩)
  replace f := f.2
  exact field_lt six (by rw [six_length (bound _), six_length (bound _)]) six_digit
    (fun n => by rw [six, LogRead.value_zeros, LogRead.value_decimal]) (.inl f)

theorem stamp_line (hide : Bool) {log : Record} (h : Shown log) :
    stamp (LogRead.lineOf hide log) = LogTextSpec.timeColumn log := by
  unfold stamp LogRead.lineOf
  exact List.take_left' (timeColumn_length' h)

theorem stamped_some {k t : Int} {zone : Int → Int} {log r : Record} (h : stamped k zone t log = some r) :
    Exists r.localTime ∧ seconds r.localTime = toTimeT k t + zone (toTimeT k t) ∧ r.micros = toMicros k t ∧
      r.line = log.line ∧ r.file = log.file ∧ r.level = log.level := by
  unfold stamped at h
  cases e : localTime zone (toTimeT k t) with
  | none => rw [e] at h; cases h
  | some tm =>
    rw [e] at h
    cases h
    obtain ⟨h1, h2⟩ := gmTime_some e
    exact ⟨h1, h2, rfl, rfl, rfl, rfl⟩

theorem micros_parts {k t : Int} (hk : 0 < k) (ht : 0 ≤ t) : toMicros k t = t / k ∧ toTimeT k t = t / k / 1000000 ∧
    0 ≤ t / k := by
  refine ⟨Int.tdiv_eq_ediv_of_nonneg ht, ?_, Int.ediv_nonneg ht (by omega)⟩
  unfold toTimeT
  rw [Int.tdiv_eq_ediv_of_nonneg ht, Int.ediv_ediv_of_nonneg (by omega)]

theorem seconds_micros {n : Int} (h : 0 ≤ n) : ((n.tmod 1000000).natAbs : Int) = n % 1000000 := by
  rw [Int.tmod_eq_emod_of_nonneg h]
  omega

end Pluto.LogTime
