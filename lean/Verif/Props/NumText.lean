import Verif.Model.NumText
import Verif.Props.Num

/-!
# Properties of `str` and `str_to` for characters, `bool` and strings (C102)
-/

namespace Pluto.Props

open Num NumSpec

/-- White space by character codes. -/
theorem isSpace_iff (c : Char) : isSpace c = true ↔ (9 ≤ c.toNat ∧ c.toNat ≤ 13) ∨ c.toNat = 32 := by
  have h : ∀ d : Char, c = d ↔ c.toNat = d.toNat := fun d => Char.toNat_inj.symm
  simp only [isSpace, Bool.or_eq_true, beq_iff_eq, h]
  have : (' ').toNat = 32 ∧ ('\t').toNat = 9 ∧ ('\n').toNat = 10 ∧ ('\x0b').toNat = 11 ∧ ('\x0c').toNat = 12 ∧
    ('\r').toNat = 13 := by decide
  omega

/-- C102.  `str_to` of a `std::string` is the first word of the text, which is empty only if the text has none.
(`sp` is white space, `w` a word, and `r` does not go on with it.) -/
theorem C102_word (sp w r : List Char) (hsp : ∀ c ∈ sp, isSpace c = true) (hw : ∀ c ∈ w, isSpace c = false)
    (hr : ∀ c, r.head? = some c → isSpace c = true) (hne : w ≠ [] ∨ r = []) :
    strToString (sp ++ w ++ r) = w := by
  unfold strToString
  rw [List.append_assoc, List.dropWhile_append_of_pos hsp]
  cases w with
  | nil =>
    have : r = [] := by simpa using hne
    subst this; rfl
  | cons c w =>
    have h1 : (c :: w ++ r).dropWhile isSpace = c :: w ++ r := by
      rw [List.cons_append, List.dropWhile_cons_of_neg (by simp [hw c (by simp)])]
    rw [h1, List.takeWhile_append_of_pos (by simpa using hw)]
    cases r with
    | nil => simp
    | cons d r => simp [hr d rfl]

/-- C102 (partial: strings with white space are missing).  A string survives `str` (which returns it) and `str_to`
exactly if there is no white space in it. -/
theorem C102_string_partial (s : List Char) : strToString s = s ↔ ∀ c ∈ s, isSpace c = false := by
  constructor
  · intro h c hc
    rw [← h] at hc
    have := List.all_takeWhile (p := fun c => !isSpace c) (l := s.dropWhile isSpace)
    rw [List.all_eq_true] at this
    simpa using this c hc
  · intro h
    simpa using C102_word [] s [] (by simp) h (by simp) (Or.inr rfl)

/-- C102 (partial: white space is missing).  A character survives `str` and `str_to` exactly if it is not white
space; of white space `str_to` returns an indeterminate value. -/
theorem C102_char_partial (c : Char) :
    (isSpace c = false → strToChar (strChar c) = .ok c) ∧
      (isSpace c = true → strToChar (strChar c) = .error .undefined) := by
  constructor <;> intro h <;> simp [strToChar, strChar, List.dropWhile, h]

/-- C102.  `str` of a `bool` is "1" or "0", which `str_to` reads back; and `str_to` is true for every other number
than 0, whatever its size, and false for a text without a number, such as "true". -/
theorem C102_bool (b : Bool) (v : Int) (s : List Char) (c : Char) (hc : isSpace c = false) (hd : c.isDigit = false)
    (hp : c ≠ '+' ∧ c ≠ '-') :
    strBool b = (if b then ['1'] else ['0']) ∧ strToBool (strBool b) = .ok b ∧
      strToBool (str v) = .ok (decide (v ≠ 0)) ∧
      strToBool (c :: s) = .ok false := by
  have key : ∀ v : Int, strToBool (str v) = .ok (decide (v ≠ 0)) := by
    intro v
    have h := C61_value 64 [] (if v < 0 then ['-'] else []) (Nat.toDigits 10 v.natAbs) [] (by simp)
      (by split <;> simp) Nat.toDigits_ne_nil
      (fun c hc => Nat.isDigit_of_mem_toDigits (by norm_num) (by norm_num) hc) (by simp)
    have hs : [] ++ (if v < 0 then ['-'] else []) ++ Nat.toDigits 10 v.natAbs ++ [] = str v := by
      unfold str; split <;> simp_all
    rw [hs, value_toDigits 10 _ (by norm_num) (by norm_num)] at h
    unfold strTo at h
    unfold strToBool
    cases he : extract ⟨64, true⟩ (str v) with
    | none => rw [he] at h; cases h
    | some w =>
      rw [he] at h
      injection h with h
      have : (w != 0) = decide (v ≠ 0) := by
        rw [Bool.eq_iff_iff, bne_iff_ne, decide_eq_true_iff]
        by_cases hv : v < 0
        · simp only [hv, if_true] at h; omega
        · rw [if_neg hv, if_neg (by decide)] at h; omega
      show Except.ok (w != 0) = _
      rw [this]
  refine ⟨by cases b <;> decide, ?_, key v, ?_⟩
  · cases b
    · exact key 0
    · exact key 1
  · have h1 : (c :: s).dropWhile isSpace = c :: s := List.dropWhile_cons_of_neg (by simp [hc])
    have h2 : readDigits (c :: s) false 0 = (false, 0) := by simp [readDigits, hd]
    unfold strToBool extract
    rw [h1]
    split
    · rename_i heq; split at heq
      · cases heq
      · rename_i h; injection h with h _; exact absurd h hp.2
      · rename_i h; injection h with h _; exact absurd h hp.1
      · rename_i h; injection h with ha hb; subst ha; subst hb
        rw [h2] at heq; simp [convert] at heq; subst heq; rfl
    · rename_i heq; split at heq
      · rename_i h; cases h
      all_goals simp at heq

/-- C102 (partial: white space is missing).  An 8-bit integer is written as one character, not as a number, and
survives `str` and `str_to` exactly if that character is not white space. -/
theorem C102_byte_partial (signed : Bool) (v : Int)
    (hv : if signed then -128 ≤ v ∧ v ≤ 127 else 0 ≤ v ∧ v ≤ 255) :
    (strByte v).length = 1 ∧
      strToByte signed (strByte v) = if (9 ≤ v ∧ v ≤ 13) ∨ v = 32 then .error .undefined else .ok v := by
  refine ⟨rfl, ?_⟩
  obtain ⟨n, hn⟩ : ∃ n : Nat, (v % 256).toNat = n := ⟨_, rfl⟩
  have hlt : n < 256 := by omega
  have hto : (Char.ofNat n).toNat = n := by
    have : n.isValidChar := Or.inl (by omega)
    simp [Char.ofNat, this, Char.ofNatAux, Char.toNat]
  have hsp := isSpace_iff (Char.ofNat n)
  rw [hto] at hsp
  have h1 : strToByte signed (strByte v) = if isSpace (Char.ofNat n) then .error .undefined
      else .ok (if signed = true ∧ 128 ≤ n then (n : Int) - 256 else n) := by
    unfold strToByte strByte
    rw [hn]
    cases h : isSpace (Char.ofNat n)
    · rw [(C102_char_partial _).1 h]; simp [Except.map, hto]
    · rw [(C102_char_partial _).2 h]; simp [Except.map]
  rw [h1]
  have hcond : ((9 ≤ v ∧ v ≤ 13) ∨ v = 32) ↔ isSpace (Char.ofNat n) = true := by
    rw [hsp]
    cases signed <;> simp only [if_true, if_false, Bool.false_eq_true] at hv <;> omega
  have hval : (if signed = true ∧ 128 ≤ n then (n : Int) - 256 else n) = v := by
    cases signed <;> simp only [if_true, if_false, Bool.false_eq_true, true_and, false_and] at hv ⊢
    · omega
    · split <;> omega
  simp only [hcond, hval]

/-- C102 fails: `str` of an `int8_t` is not its decimal text, and `str_to` reads only one digit; strings lose
everything behind the first word; "true" is false. -/
theorem C102_fails :
    strByte 65 = ['A'] ∧ strToByte true "65".toList = .ok 54 ∧
      strToString "to be or not".toList = "to".toList ∧ strToBool "true".toList = .ok false ∧
      strToBool "-7".toList = .ok true ∧ strToChar "  x".toList = .ok 'x' := by decide

end Pluto.Props
