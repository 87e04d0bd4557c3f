import Verif.Model.LogRead
import Verif.Spec.LogRead
import Verif.Proofs.LogText
import Verif.Props.Value
import Verif.Proofs.Num

/-! # Lemmas about reading the text of a log file -/

namespace Pluto.LogRead
open LogText LogTextSpec LogReadSpec NumSpec

theorem lastPart_eq {path : List Char} {k : Nat} (h1 : ∀ c ∈ path.drop k, c ≠ '/' ∧ c ≠ '\\')
    (h2 : k = 0 ∨ ∃ dir sep, path.take k = dir ++ [sep] ∧ (sep = '/' ∨ sep = '\\')) : path.drop k = lastPart path := by
  have e : path.reverse = (path.drop k).reverse ++ (path.take k).reverse := by
    rw [← List.reverse_append, List.take_append_drop]
  unfold lastPart
  rw [e, List.takeWhile_append_of_pos (fun c hc => decide_eq_true (h1 c (List.mem_reverse.1 hc)))]
  have : (path.take k).reverse.takeWhile (fun c => c ≠ '/' ∧ c ≠ '\\') = [] := by
    rcases h2 with rfl | ⟨dir, sep, he, hs⟩
    · simp
    · rw [he, List.reverse_append]
      rcases hs with rfl | rfl <;> simp
  rw [this]
  simp

theorem mem_lastPart {path : List Char} {c : Char} (h : c ∈ lastPart path) : c ∈ path := by
  have := List.mem_reverse.1 h
  exact List.mem_reverse.1 ((List.takeWhile_sublist _).subset this)

/-- The line of an entry. -/
def lineOf (hide : Bool) (log : Record) : List Char :=
  timeColumn log ++ '|' :: (flushRight 7 (decimal log.threadId) ++ '|' :: (flushLeft 8 (title log.level) ++ '|' ::
    (if hide then log.message else flushLeft 20 ((lastPart log.file).take 20) ++ '|' ::
      (flushRight 5 (decimal log.line.natAbs) ++ '|' :: (flushLeft 20 (log.function.take 20) ++ '|' :: log.message)))))

theorem logWriter_eq (hide : Bool) (o : Out) (log : Record) (hm : 0 ≤ log.micros) (hl : 0 ≤ log.line)
    (hf : '\x00' ∉ log.file) :
    ∃ o', logWriter hide o log = .ok o' ∧ o'.text = o.text ++ lineOf hide log ∧ o'.width = 0 := by
  have hm : 0 ≤ log.micros.tmod 1000000 := Int.tmod_nonneg _ hm
  cases hide with
  | true =>
    refine ⟨_, rfl, ?_, rfl⟩
    simp [Out.put, Out.setw, Out.left, Out.right, Out.setfill, Out.putTime, timeColumn, flushLeft, flushRight,
      signed_nonneg hm, lineOf]
  | false =>
    obtain ⟨k, hk, hle, h1, h2⟩ := Props.C74_file_name log.file [] hf
    have hlast := lastPart_eq h1 h2
    unfold logWriter
    simp only [Bool.false_eq_true, if_false, hk]
    refine ⟨_, rfl, ?_, rfl⟩
    simp [Out.put, Out.setw, Out.left, Out.right, Out.setfill, Out.putTime, timeColumn, flushLeft, flushRight,
      signed_nonneg hm, signed_nonneg hl, lineOf, hlast]

theorem put_break (o : Out) (h : o.width = 0) : (o.put ['\n']).text = o.text ++ ['\n'] := by
  simp [Out.put, h]

/-! ## Lines -/

theorem lines_line {l : List Char} (h : '\n' ∉ l) (s : List Char) : lines (l ++ '\n' :: s) = l :: lines s := by
  induction l with
  | nil => simp [lines]
  | cons c l ih =>
    simp only [List.mem_cons, not_or] at h
    rw [List.cons_append, lines, if_neg (Ne.symm h.1), ih h.2]

theorem decimal_digit {n : Nat} {c : Char} (h : c ∈ decimal n) : c.isDigit = true :=
  Nat.isDigit_of_mem_toDigits (by decide) (by decide) h

theorem decimal_ne {n : Nat} {c : Char} (hc : c.isDigit = false) : c ∉ decimal n := fun h => by
  rw [decimal_digit h] at hc
  cases hc

theorem two_ne {n : Nat} {c : Char} (hc : c.isDigit = false) : c ∉ two n := by
  unfold two
  split
  · intro h
    rcases List.mem_cons.1 h with rfl | h
    · exact absurd hc (by decide)
    · exact decimal_ne hc h
  · exact decimal_ne hc

theorem title_ne {level : Int} {c : Char} (hc : c = '\n' ∨ c = '|' ∨ c = ' ') : c ∉ title level := by
  unfold title
  repeat' split
  all_goals rcases hc with rfl | rfl | rfl <;> decide

theorem mem_pad {n : Nat} {c d : Char} (h : c ∈ List.replicate n d) : c = d := List.eq_of_mem_replicate h

theorem timeColumn_break (log : Record) : '\n' ∉ timeColumn log := by
  have d : Char.isDigit '\n' = false := by decide
  intro h
  simp only [timeColumn, timeText, List.mem_append, List.mem_cons, List.not_mem_nil, or_false,
    decimal_ne d, two_ne d, false_or, List.cons_append, List.append_assoc] at h
  revert h
  simp

theorem lineOf_break (hide : Bool) (log : Record) (h1 : '\n' ∉ log.file) (h2 : '\n' ∉ log.function)
    (h3 : '\n' ∉ log.message) : '\n' ∉ lineOf hide log := by
  have d : Char.isDigit '\n' = false := by decide
  have h1 : '\n' ∉ (lastPart log.file).take 20 := fun h => h1 (mem_lastPart (List.mem_of_mem_take h))
  have h2 : '\n' ∉ log.function.take 20 := fun h => h2 (List.mem_of_mem_take h)
  have h4 := title_ne (level := log.level) (c := '\n') (.inl rfl)
  unfold lineOf
  cases hide <;>
    simp [timeColumn_break, flushLeft, flushRight, decimal_ne d, h1, h2, h3, h4]

/-! ## Columns -/

theorem column_app {s t : List Char} (h : '|' ∉ s) : column (s ++ '|' :: t) = s := by
  unfold column
  rw [List.takeWhile_append_of_pos (fun c hc => by
    have : c ≠ '|' := fun e => h (e ▸ hc)
    simpa using this)]
  simp

theorem rest_app {s t : List Char} (h : '|' ∉ s) : rest (s ++ '|' :: t) = t := by
  unfold rest
  rw [List.dropWhile_append_of_pos (fun c hc => by
    have : c ≠ '|' := fun e => h (e ▸ hc)
    simpa using this)]
  simp

theorem number_eq {s : List Char} (h : ' ' ∉ s) (n : Nat) : number (List.replicate n ' ' ++ s) = value 10 s := by
  unfold number
  rw [List.dropWhile_append_of_pos (fun c hc => decide_eq_true (mem_pad hc))]
  cases s with
  | nil => rfl
  | cons c s => rw [List.dropWhile_cons_of_neg]; simpa using Ne.symm (List.ne_of_not_mem_cons h)

theorem number_plain {s : List Char} (h : ' ' ∉ s) : number s = value 10 s := number_eq h 0

theorem value_decimal (n : Nat) : value 10 (decimal n) = n := Num.value_toDigits 10 n (by omega) (by omega)

theorem value_zero (s : List Char) : value 10 ('0' :: s) = value 10 s := by
  simp [value, digitValue]

theorem value_zeros (n : Nat) (s : List Char) : value 10 (List.replicate n '0' ++ s) = value 10 s := by
  induction n with
  | zero => rfl
  | succ n ih => rw [List.replicate_succ, List.cons_append, value_zero, ih]

theorem value_two (n : Nat) : value 10 (two n) = n := by
  unfold two
  split
  · rw [value_zero, value_decimal]
  · exact value_decimal n

theorem number_two (n : Nat) : number (two n) = n := by
  rw [number_plain (two_ne (by decide)), value_two]

theorem number_decimal (n : Nat) : number (decimal n) = n := by
  rw [number_plain (decimal_ne (by decide)), value_decimal]

theorem number_flushRight (k n : Nat) : number (flushRight k (decimal n)) = n := by
  unfold flushRight
  rw [number_eq (decimal_ne (by decide)), value_decimal]

theorem flushRight_bar (k n : Nat) : '|' ∉ flushRight k (decimal n) := by
  simp [flushRight, decimal_ne (c := '|') (n := n) (by decide)]

theorem flushLeft_bar {k : Nat} {t : List Char} (h : '|' ∉ t) : '|' ∉ flushLeft k t := by
  simp [flushLeft, h]

theorem trimEnd_pad (t : List Char) (n : Nat) : trimEnd (t ++ List.replicate n ' ') = trimEnd t := by
  unfold trimEnd
  rw [List.reverse_append, List.reverse_replicate,
    List.dropWhile_append_of_pos (fun c hc => decide_eq_true (mem_pad hc))]

theorem trimEnd_plain {t : List Char} (h : ' ' ∉ t) : trimEnd t = t := by
  unfold trimEnd
  have h : ' ' ∉ t.reverse := fun hm => h (List.mem_reverse.1 hm)
  cases ht : t.reverse with
  | nil => simpa using ht
  | cons c s =>
    rw [ht] at h
    rw [List.dropWhile_cons_of_neg (by simpa using Ne.symm (List.ne_of_not_mem_cons h)), ← ht, List.reverse_reverse]

theorem levelOf_title {level : Int} (h : 0 ≤ level ∧ level ≤ 8) : levelOf (title level) = some level := by
  have : level = 0 ∨ level = 1 ∨ level = 2 ∨ level = 3 ∨ level = 4 ∨ level = 5 ∨ level = 6 ∨ level = 7 ∨
    level = 8 := by omega
  rcases this with rfl | rfl | rfl | rfl | rfl | rfl | rfl | rfl | rfl <;> decide

theorem len2 {l : List Char} (h : l.length = 2) : ∃ a b, l = [a, b] := by
  match l, h with
  | [a, b], _ => exact ⟨a, b, rfl⟩

theorem len4 {l : List Char} (h : l.length = 4) : ∃ a b c d, l = [a, b, c, d] := by
  match l, h with
  | [a, b, c, d], _ => exact ⟨a, b, c, d, rfl⟩

theorem len6 {l : List Char} (h : l.length = 6) : ∃ a b c d e f, l = [a, b, c, d, e, f] := by
  match l, h with
  | [a, b, c, d, e, f], _ => exact ⟨a, b, c, d, e, f, rfl⟩

theorem time_read {log : Record} (h : TimeFits log) (t : List Char) :
    let s := timeColumn log ++ '|' :: t
    number (s.take 4) = log.localTime.year ∧ number ((s.drop 5).take 2) = log.localTime.month ∧
    number ((s.drop 8).take 2) = log.localTime.day ∧ number ((s.drop 11).take 2) = log.localTime.hour ∧
    number ((s.drop 14).take 2) = log.localTime.minute ∧ number ((s.drop 17).take 2) = log.localTime.second ∧
    number ((s.drop 20).take 6) = (log.micros % 1000000).toNat ∧ s.drop 27 = t := by
  have ly : (decimal log.localTime.year).length = 4 := by
    have h1 : (decimal log.localTime.year).length ≤ 4 := decimal_le (by omega) h.year.2
    have h2 : ¬ (decimal log.localTime.year).length ≤ 3 := fun hl => by
      have := (Nat.length_toDigits_le_iff (by omega) (by omega)).1 hl
      have := h.year.1
      omega
    omega
  have hm : (log.micros.tmod 1000000).natAbs = (log.micros % 1000000).toNat := by
    rw [Int.tmod_eq_emod_of_nonneg h.micros]
    omega
  have l6 : (decimal (log.micros % 1000000).toNat).length ≤ 6 := decimal_le (by omega) (by omega)
  have lu : (List.replicate (6 - (decimal (log.micros % 1000000).toNat).length) '0' ++
      decimal (log.micros % 1000000).toNat).length = 6 := by
    simp; omega
  have hu : number (List.replicate (6 - (decimal (log.micros % 1000000).toNat).length) '0' ++
      decimal (log.micros % 1000000).toNat) = (log.micros % 1000000).toNat := by
    rw [number_plain, value_zeros, value_decimal]
    simp [decimal_ne (c := ' ') (by decide)]
  have ny := number_decimal log.localTime.year
  have n1 := number_two log.localTime.month
  have n2 := number_two log.localTime.day
  have n3 := number_two log.localTime.hour
  have n4 := number_two log.localTime.minute
  have n5 := number_two log.localTime.second
  obtain ⟨y1, y2, y3, y4, ey⟩ := len4 ly
  obtain ⟨a1, a2, e1⟩ := len2 (two_length h.month)
  obtain ⟨b1, b2, e2⟩ := len2 (two_length h.day)
  obtain ⟨c1, c2, e3⟩ := len2 (two_length h.hour)
  obtain ⟨d1, d2, e4⟩ := len2 (two_length h.minute)
  obtain ⟨f1, f2, e5⟩ := len2 (two_length h.second)
  obtain ⟨u1, u2, u3, u4, u5, u6, eu⟩ := len6 lu
  rw [ey] at ny
  rw [e1] at n1
  rw [e2] at n2
  rw [e3] at n3
  rw [e4] at n4
  rw [e5] at n5
  rw [eu] at hu
  unfold timeColumn timeText
  rw [hm, eu, ey, e1, e2, e3, e4, e5]
  exact ⟨ny, n1, n2, n3, n4, n5, hu, rfl⟩

theorem flushLeft_trim (k : Nat) (t : List Char) : trimEnd (flushLeft k t) = trimEnd t := trimEnd_pad t _

theorem readLine_lineOf (hide : Bool) {log : Record} (h : TimeFits log) (hl : 0 ≤ log.line)
    (hv : 0 ≤ log.level ∧ log.level ≤ 8) : readLine hide (lineOf hide log) = shown hide log := by
  have b1 := flushRight_bar 7 log.threadId
  have b2 := flushLeft_bar (k := 8) (title_ne (level := log.level) (c := '|') (.inr (.inl rfl)))
  have b3 := flushRight_bar 5 log.line.natAbs
  have t2 : trimEnd (flushLeft 8 (title log.level)) = title log.level := by
    rw [flushLeft_trim, trimEnd_plain (title_ne (.inr (.inr rfl)))]
  obtain ⟨ny, n1, n2, n3, n4, n5, hu, h27⟩ := time_read h (flushRight 7 (decimal log.threadId) ++ '|' ::
    (flushLeft 8 (title log.level) ++ '|' ::
    (if hide then log.message else flushLeft 20 ((lastPart log.file).take 20) ++ '|' ::
      (flushRight 5 (decimal log.line.natAbs) ++ '|' :: (flushLeft 20 (log.function.take 20) ++ '|' :: log.message)))))
  have l4 := flushLeft_length (n := 20) (t := (lastPart log.file).take 20) (by simp)
  have l6 := flushLeft_length (n := 20) (t := log.function.take 20) (by simp)
  have hn : log.line.natAbs = log.line.toNat := by omega
  rw [hn] at b3
  unfold readLine lineOf shown
  simp only [ny, n1, n2, n3, n4, n5, hu, h27, column_app b1, rest_app b1, column_app b2, rest_app b2, number_flushRight,
    t2, levelOf_title hv]
  cases hide with
  | true => rfl
  | false =>
    have d4 : ∀ t, (flushLeft 20 ((lastPart log.file).take 20) ++ '|' :: t).drop 21 = t := fun t => by
      rw [List.drop_append, l4, List.drop_of_length_le (by omega)]; rfl
    have k4 : ∀ t, (flushLeft 20 ((lastPart log.file).take 20) ++ '|' :: t).take 20 =
        flushLeft 20 ((lastPart log.file).take 20) := fun t => by
      rw [List.take_append_of_le_length (by omega), List.take_of_length_le (by omega)]
    have d6 : ∀ t, (flushLeft 20 (log.function.take 20) ++ '|' :: t).drop 21 = t := fun t => by
      rw [List.drop_append, l6, List.drop_of_length_le (by omega)]; rfl
    have k6 : ∀ t, (flushLeft 20 (log.function.take 20) ++ '|' :: t).take 20 =
        flushLeft 20 (log.function.take 20) := fun t => by
      rw [List.take_append_of_le_length (by omega), List.take_of_length_le (by omega)]
    simp only [Bool.false_eq_true, if_false, d4, k4, rest_app b3, column_app b3, d6, k6, number_flushRight,
      flushLeft_trim, hn]

/-! ## Files -/

/-- The two lines of the default header. -/
def headLine (hide : Bool) : List Char :=
  if hide then "Timestamp                 |    TID|Level   |Message".toList
  else "Timestamp                 |    TID|Level   |File Name           | Line|Function            |Message".toList

/-- The second line. -/
def ruleLine (hide : Bool) : List Char :=
  if hide then "--------------------------+-------+--------+-------".toList
  else "--------------------------+-------+--------+--------------------+-----+--------------------+-------".toList

set_option maxRecDepth 4000 in
theorem header_eq (hide : Bool) (o : Out) :
    (headerWriter hide o).text = o.text ++ (headLine hide ++ '\n' :: ruleLine hide) := by
  rw [header_before]
  cases hide <;> exact congrArg _ (by decide)

theorem header_width (hide : Bool) (o : Out) : (headerWriter hide o).width = 0 := by
  cases hide <;> rfl

/-- The text of the entries. -/
def body (hide : Bool) (logs : List Record) : List Char := logs.flatMap fun log => lineOf hide log ++ ['\n']

/-- The text of the header at the beginning of a file. -/
def head (hide wh : Bool) (text : List Char) : List Char :=
  if wh = true ∧ text = [] then headLine hide ++ '\n' :: (ruleLine hide ++ ['\n']) else []

/-- The entry can be written. -/
structure Plain (log : Record) : Prop where
  micros : 0 ≤ log.micros
  line : 0 ≤ log.line
  file : '\x00' ∉ log.file

theorem writeEntry_eq (hide wh : Bool) (o : Out) (log : Record) (hp : Plain log) :
    ∃ o', writeEntry hide wh o log = .ok o' ∧ o'.text = o.text ++ (head hide wh o.text ++ body hide [log]) := by
  unfold writeEntry head
  by_cases h : wh = true ∧ o.text = []
  · rw [if_pos (by simpa using h), if_pos h]
    obtain ⟨o', e, ht, hw⟩ := logWriter_eq hide ((headerWriter hide o).put ['\n']) log hp.micros hp.line hp.file
    refine ⟨o'.put ['\n'], by simp only [e], ?_⟩
    rw [put_break _ hw, ht, put_break _ (header_width hide o), header_eq]
    simp [body]
  · rw [if_neg (by simpa using h), if_neg h]
    obtain ⟨o', e, ht, hw⟩ := logWriter_eq hide o log hp.micros hp.line hp.file
    refine ⟨o'.put ['\n'], by simp only [e], ?_⟩
    rw [put_break _ hw, ht]
    simp [body]

theorem body_ne (hide : Bool) (log : Record) (logs : List Record) (a b : List Char) :
    a ++ (b ++ body hide (log :: logs)) ≠ [] := by
  simp [body]

theorem writeEntries_eq (hide wh : Bool) (o : Out) (logs : List Record) (hp : ∀ log ∈ logs, Plain log) :
    ∃ o', writeEntries hide wh o logs = .ok o' ∧
      o'.text = o.text ++ ((if logs = [] then [] else head hide wh o.text) ++ body hide logs) := by
  induction logs generalizing o with
  | nil => exact ⟨o, rfl, by simp [body]⟩
  | cons log logs ih =>
    obtain ⟨o₁, e₁, t₁⟩ := writeEntry_eq hide wh o log (hp log List.mem_cons_self)
    obtain ⟨o₂, e₂, t₂⟩ := ih o₁ (fun l hl => hp l (List.mem_cons_of_mem _ hl))
    refine ⟨o₂, by rw [writeEntries, e₁]; exact e₂, ?_⟩
    have hn : head hide wh o₁.text = [] := by
      unfold head
      rw [if_neg]
      rintro ⟨-, hn⟩
      exact body_ne hide log [] o.text (head hide wh o.text) (t₁ ▸ hn)
    rw [t₂, hn, t₁, if_neg (c := log :: logs = []) (List.cons_ne_nil _ _)]
    simp [body]

theorem writeFile_eq (hide wh : Bool) (text : List Char) (batches : List (List Record))
    (hp : ∀ log ∈ batches.flatten, Plain log) :
    writeFile hide wh text batches = .ok (text ++
      ((if batches.flatten = [] then [] else head hide wh text) ++ body hide batches.flatten)) := by
  induction batches generalizing text with
  | nil => simp [writeFile, body]
  | cons logs batches ih =>
    obtain ⟨o, e, t⟩ := writeEntries_eq hide wh { text := text } logs (fun l hl => hp l (by simp [hl]))
    rw [writeFile, e]
    show writeFile hide wh o.text batches = _
    rw [ih _ (fun l hl => hp l (by rw [List.flatten_cons]; exact List.mem_append_right _ hl)), t]
    cases logs with
    | nil => simp [body]
    | cons log logs =>
      have hn : head hide wh (text ++ (head hide wh text ++ body hide (log :: logs))) = [] := by
        unfold head
        rw [if_neg]
        rintro ⟨-, hn⟩
        exact body_ne hide log logs _ _ hn
      simp only [if_neg (List.cons_ne_nil log logs), hn, ite_self, List.nil_append, List.flatten_cons, List.cons_append,
        if_neg (List.cons_ne_nil log (logs ++ batches.flatten))]
      simp [body]

theorem lines_body (hide : Bool) (logs : List Record) (h : ∀ log ∈ logs, '\n' ∉ lineOf hide log) :
    lines (body hide logs) = logs.map (lineOf hide) := by
  induction logs with
  | nil => rfl
  | cons log logs ih =>
    show lines ((lineOf hide log ++ ['\n']) ++ body hide logs) = _
    rw [List.append_assoc]
    show lines (lineOf hide log ++ '\n' :: body hide logs) = _
    rw [lines_line (h log List.mem_cons_self), ih (fun l hl => h l (List.mem_cons_of_mem _ hl))]
    rfl

end Pluto.LogRead
