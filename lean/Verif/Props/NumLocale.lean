import Verif.Proofs.NumLocale
import Verif.Props.Num
import Verif.Props.LogText
import Verif.Props.FloatText

/-!
# C166: numbers as text, whatever the global locale is
-/

namespace Pluto.Props
open Pluto.Num Pluto.LogText Pluto.LogTextSpec

/-- C166: in any locale, `str_to` reads the text that `str` writes in that locale. -/
theorem C166_round_trip (p : Punct) (hp : p.Sane) (t : IntType) (v : Int) (h1 : t.min ≤ v) (h2 : v ≤ t.max) :
    strToIn p t (strIn p v) = .ok v := by
  have hm := group_mem p (Nat.toDigits 10 v.natAbs)
  rw [strIn_eq, strToIn_eq p hp t (decide (v < 0)) ?_ ?_ ?_, group_filter p (sep_notMem hp _), ← str_eq]
  · exact C61_round_trip t v h1 h2
  · intro c hc
    rcases hm c hc with h | h
    · exact Or.inl h
    · exact Or.inr (Nat.isDigit_of_mem_toDigits (by norm_num) (by norm_num) h)
  · by_cases hg : p.grouping = []
    · right
      have : p.group (Nat.toDigits 10 v.natAbs) = Nat.toDigits 10 v.natAbs := by
        unfold Punct.group; rw [hg]
      rw [this]; exact sep_notMem hp _
    · exact Or.inl hg
  · rw [group_head]; exact toDigits_head _

example : american.Sane ∧ indian.Sane := ⟨⟨by decide, by decide, by decide⟩, ⟨by decide, by decide, by decide⟩⟩

example : strIn indian (-123456789) = "-12,34,56,789".toList ∧
    strToIn indian ⟨32, true⟩ "-12,34,56,789".toList = .ok (-123456789) := by decide

/-- C166: the text that `str` writes in the "C" locale is read in every locale. -/
theorem C166_plain (p : Punct) (hp : p.Sane) (t : IntType) (v : Int) (h1 : t.min ≤ v) (h2 : v ≤ t.max) :
    strToIn p t (str v) = .ok v := by
  have hf : (Nat.toDigits 10 v.natAbs).filter (fun c => decide (c ≠ p.sep)) = Nat.toDigits 10 v.natAbs := by
    rw [List.filter_eq_self]
    intro c hc
    simp only [ne_eq, decide_eq_true_eq]
    rintro rfl; exact sep_notMem hp _ hc
  rw [str_eq, strToIn_eq p hp t (decide (v < 0)) ?_ (Or.inr (sep_notMem hp _)) (toDigits_head _), hf, ← str_eq]
  · exact C61_round_trip t v h1 h2
  · intro c hc
    exact Or.inr (Nat.isDigit_of_mem_toDigits (by norm_num) (by norm_num) hc)

/-- C166: in any locale, the text is that of the "C" locale with separators in it. -/
theorem C166_digits (p : Punct) (hp : p.Sane) (v : Int) :
    (strIn p v).filter (fun c => decide (c ≠ p.sep)) = str v := by
  rw [strIn_eq, str_eq, List.filter_append, group_filter p (sep_notMem hp _)]
  by_cases h : v < 0
  · simp [h, Ne.symm hp.minus]
  · simp [h]

/-- C166: in a locale with groups of `g` digits, counted from the right, the separators are exactly after every `g` digits,
and never at the front. -/
theorem C166_groups (p : Punct) (hp : p.Sane) {g : Nat} (hg : 0 < g) (hgr : p.grouping = [g]) (n : Nat) :
    (∀ j, j < (strIn p n).length → ((strIn p n).reverse[j]? = some p.sep ↔ j % (g + 1) = g)) ∧
    (strIn p n).head? ≠ some p.sep := by
  have e : strIn p n = (groupRev p.sep g [] 0 (Nat.toDigits 10 n).reverse).reverse := by
    rw [strIn_eq]
    simp [Punct.group, hgr]
  constructor
  · intro j hj
    rw [e, List.reverse_reverse]
    exact groupRev_sep _ (by simpa using sep_notMem hp n) hg (by omega) j (by rw [e] at hj; simpa using hj)
  · have h2 : strIn p n = p.group (Nat.toDigits 10 n) := by rw [strIn_eq]; simp
    rw [h2, group_head]
    obtain ⟨c, h3, h4⟩ := toDigits_head n
    rw [h3]
    intro h
    cases h
    rw [hp.digit] at h4; cases h4

example : strIn american 1234567 = "1,234,567".toList := by decide

/-- C166: the text is that of the "C" locale exactly if the locale has no groups or the first group holds all digits.
Full property: the text does not depend on the global locale.  Missing: numbers with more digits (`C166_fails_text`), and
reading them in another locale (`C166_fails_read`). -/
theorem C166_text_partial (p : Punct) (v : Int) : strIn p v = str v ↔ p.Short v.natAbs := strIn_same p v

example : american.Short 999 ∧ ¬ american.Short 1000 := by
  constructor
  · intro g hg; cases hg; right; decide
  · intro h; have := h 3 rfl; omega

/-- C166, negation of the full property: in the American locale, the text of one million has separators. -/
theorem C166_fails_text : strIn american 1000000 = "1,000,000".toList ∧ str 1000000 = "1000000".toList := by decide

/-- C166, negation of the full property: a number that was written before the global locale was changed is read wrongly. -/
theorem C166_fails_read : strToIn classic ⟨32, true⟩ (strIn american 1000000) = .ok 1 := by decide

/-- C166: a default log line is that of the "C" locale if the microseconds, the thread id and the line are short numbers of the
locale; then the columns line up with the header (C35).
Full property: the log does not depend on the global locale.  Missing: longer numbers, see `C166_fails_columns`. -/
theorem C166_log_partial (p : Punct) (hide : Bool) (o : Out) (log : Record)
    (h1 : p.Short (log.micros.tmod 1000000).natAbs) (h2 : p.Short log.threadId) (h3 : p.Short log.line.natAbs) :
    logWriterIn p hide o log = logWriter hide o log := by
  have e1 : strIn p (log.micros.tmod 1000000) = signed (log.micros.tmod 1000000) := (strIn_same p _).2 h1
  have e2 : strIn p (log.threadId : Int) = decimal log.threadId := by
    rw [(strIn_same p _).2 (by simpa using h2)]
    unfold str decimal; simp
  have e3 : strIn p log.line = signed log.line := (strIn_same p _).2 h3
  unfold logWriterIn logWriter
  rw [e1, e2, e3]
  cases Value.fileName (log.file ++ ['\x00']) <;> rfl

/-- The example of C35 with a small thread id. -/
example : american.Short (({ exampleRecord with threadId := 471 }).micros.tmod 1000000).natAbs ∧
    american.Short ({ exampleRecord with threadId := 471 }).threadId ∧
    american.Short ({ exampleRecord with threadId := 471 }).line.natAbs := by
  refine ⟨?_, ?_, ?_⟩ <;> (intro g hg; cases hg; right; decide)

/-- C166, negation of the full property: in the American locale, the microseconds of an entry whose fields fit their
columns have a separator, and nothing after them is in its column. -/
theorem C166_fails_columns : Fits { exampleRecord with micros := 1715936639123456 } ∧
    (logWriterIn american true {} { exampleRecord with micros := 1715936639123456 }).toOption.map Out.text =
      some "2024-05-17 09:03:59.123,456|  4,711|Warning |hello".toList ∧
    ∀ k ∈ bars true, "2024-05-17 09:03:59.123,456|  4,711|Warning |hello".toList[k]? ≠ some '|' :=
  ⟨⟨by decide, by decide, by decide, by decide, by decide, by decide, by decide, by decide, by decide, by decide⟩,
    by decide, by decide⟩

open Pluto.FloatText in
/-- C166: in any locale, `str_to` makes of the text of a floating-point number in that locale what it makes of its text in
the "C" locale in that one; so C103 holds in any locale. -/
theorem C166_float (p : Punct) (hp : p.SanePoint) (bits : ℕ) (x : ℚ) :
    strToFloatIn p bits (strFloatIn p x) = strToFloat bits (strFloat x) := by
  unfold strToFloatIn strToFloat
  rw [readNumberIn_strFloatIn p hp]
  cases readNumber (strFloat x) <;> rfl

example : german.SanePoint := ⟨⟨by decide, by decide, by decide⟩, by decide, by decide, by decide⟩

open Pluto.FloatText in
/-- C166: in a locale without groups and with a period for the decimal point, the text is that of the "C" locale. -/
theorem C166_float_text_partial (p : Punct) (hp : p.grouping = []) (hpt : p.point = '.') (x : ℚ) :
    strFloatIn p x = strFloat x := by
  unfold strFloatIn strFloat
  simp only [localise_plain p hp hpt]

example : classic.grouping = [] ∧ classic.point = '.' := by decide

open Pluto.FloatText in
/-- C166, negation of the full property: in the German locale the text of 1.5 has a comma; read in the "C" locale, it is 1. -/
theorem C166_fails_float (bits : ℕ) (hb : 1 ≤ bits) :
    strFloat (3 / 2) = "1.5".toList ∧ strFloatIn german (3 / 2) = "1,5".toList ∧
      strToFloatIn classic bits (strFloatIn german (3 / 2)) = .ok 1 := by
  have hd : decimal (3 / 2 : ℚ) = (150000, 0) := by
    have := decimal_near 150000 (-5) (by norm_num) (by norm_num) (3 / 2) (by norm_num)
    simpa using this
  have h1 : strFloat (3 / 2) = general 150000 0 := by
    unfold strFloat
    rw [if_neg (by norm_num), if_neg (by norm_num), hd]
  have h2 : strFloatIn german (3 / 2) = "1,5".toList := by
    unfold strFloatIn
    rw [if_neg (by norm_num), if_neg (by norm_num), hd]
    decide
  refine ⟨by rw [h1]; decide, h2, ?_⟩
  rw [h2]
  have h3 : readNumberIn classic "1,5".toList = .ok 1 := by
    simp [readNumberIn, readSign, collect, classic, readDecimal, readFraction, readExponent, isSpace, readDigits]
  unfold strToFloatIn
  rw [h3]
  have hbits : FloatTextSpec.Bits bits ((1 : ℤ) : ℚ) := bits_int bits 1 (by
    have : (2 : ℤ) ^ 1 ≤ 2 ^ bits := pow_le_pow_right₀ (by norm_num) hb
    norm_num at this ⊢; omega)
  have := toBinary_exact bits _ hbits
  simpa using this

open Pluto.FloatText in
/-- C166, negation of the full property: "1.5", as in a file of settings, is 15 in the German locale, where a period groups
digits; this is independent of the type. -/
theorem C166_fails_settings : readNumberIn german "1.5".toList = .ok 15 ∧ readNumber "1.5".toList = .ok (3 / 2) := by
  constructor
  · simp [readNumberIn, readSign, collect, german, readDecimal, readFraction, readExponent, isSpace, readDigits]
  · simp [readNumber, readSign, readDecimal, readFraction, readExponent, isSpace, readDigits]
    norm_num

end Pluto.Props
