import Verif.Proofs.LogText
import Verif.Props.Value

/-! # Properties of the text of log entries (C26, C27, C35) -/

namespace Pluto.Props
open LogText LogTextSpec

/-! ## C26: streamers -/

/-- C26. A streamer submits nothing if no `end()`, nor the destructor, found that the level is
logged. -/
theorem C26_none (ops : List Op) (h : .finish true ∉ ops) : (Streamer.life ops false).entries = [] := by
  unfold Streamer.life
  rw [show ∀ s : Streamer, s.step (.finish false) = s by intro s; simp [Streamer.step]]
  exact (life_before ops h {} rfl).2.1

/-- C26. Otherwise it submits exactly one entry, at the first such `end()`, with everything that
was streamed before and nothing else, however often `end()` is called and whatever is streamed
later. -/
theorem C26_one (before later : List Op) (accepts : Bool) (h : .finish true ∉ before) :
    (Streamer.life (before ++ .finish true :: later) accepts).entries = [streamed before] := by
  obtain ⟨h1, h2, h3⟩ := life_before before h {} rfl
  unfold Streamer.life
  rw [List.foldl_append, List.foldl_cons]
  generalize before.foldl Streamer.step {} = s at h1 h2 h3
  have hs : s.step (.finish true) = { s with active := false, entries := [streamed before] } := by
    simp only [Streamer.step, h1, h2, h3, Bool.true_and, if_true]
    simp
  rw [hs]
  obtain ⟨h4, h5⟩ := life_after later { s with active := false, entries := [streamed before] } rfl
  simp [Streamer.step, h4, h5]

/-- C26. The destructor submits the entry if `end()` has not. -/
theorem C26_destructor (ops : List Op) (h : .finish true ∉ ops) :
    (Streamer.life ops true).entries = [streamed ops] := by
  obtain ⟨h1, h2, h3⟩ := life_before ops h {} rfl
  unfold Streamer.life
  simp [Streamer.step, h1, h2, h3]

/-- C26. At most one entry in any case. -/
theorem C26_at_most_one (ops : List Op) (accepts : Bool) : (Streamer.life ops accepts).entries.length ≤ 1 := by
  by_cases h : .finish true ∈ ops
  · obtain ⟨a, b, rfl, ha⟩ := List.eq_append_cons_of_mem h
    rw [C26_one a b accepts ha]
    simp
  · cases accepts with
    | true => rw [C26_destructor ops h]; simp
    | false => rw [C26_none ops h]; simp

example : (Streamer.life [.put "a".toList true, .finish false, .put "b".toList true, .finish true,
    .put "c".toList true, .finish true] true).entries = ["ab".toList] := by decide

/-! ## C27: writef -/

/-- C27 (partial: the text must not be empty and must be shorter than `INT_MAX`, both passes of
`vsnprintf` must produce it, and there must be memory for it). `writef` logs the formatted text. -/
theorem C27_writef_partial (scheme text : List Char) (h0 : text ≠ []) (h1 : text.length < 2 ^ 31 - 1) :
    writef scheme (some text) (some text) true = some text := by
  have : 0 < text.length := List.length_pos_iff.2 h0
  unfold writef intMax
  simp only
  rw [if_neg (by omega), if_pos this, if_neg (by omega)]
  simp

example : writef "%d items".toList (some "12 items".toList) (some "12 items".toList) true =
    some "12 items".toList := by decide

/-- C27. In the other cases but one the format string is logged instead; in particular if the text
is empty. -/
theorem C27_scheme (scheme : List Char) (first second : Option (List Char)) (alloc : Bool)
    (h : first = none ∨ first = some [] ∨ (∃ text, first = some text ∧ 2 ^ 31 - 1 < text.length) ∨
      ((∀ text, first = some text → text.length ≠ 2 ^ 31 - 1) ∧
        (alloc = false ∨ second.map List.length ≠ first.map List.length))) :
    writef scheme first second alloc = some scheme := by
  unfold writef intMax
  rcases h with rfl | rfl | ⟨text, rfl, h⟩ | ⟨h1, h2⟩
  · rfl
  · rfl
  · simp only; rw [if_pos h]
  · cases first with
    | none => rfl
    | some text =>
      simp only
      have := h1 text rfl
      split
      · rfl
      · split
        · split
          · cases second with
            | none => rfl
            | some text' =>
              simp only
              rw [if_neg]
              rcases h2 with h2 | h2
              · simp_all
              · simpa using h2
          · rfl
        · rfl

/-- C27 fails: formatting the empty string with "%s" logs "%s". -/
theorem C27_empty : writef "%s".toList (some []) (some []) true = some "%s".toList := rfl

/-- C27 fails: the behaviour is undefined for a text of `INT_MAX` characters. -/
theorem C27_longest (scheme text : List Char) (h : text.length = 2 ^ 31 - 1) (second : Option (List Char))
    (alloc : Bool) : writef scheme (some text) second alloc = none := by
  unfold writef intMax
  simp only
  rw [if_neg (by omega), if_pos (by omega), if_pos h]

example : ∃ text : List Char, text.length = 2 ^ 31 - 1 := ⟨List.replicate _ 'a', List.length_replicate⟩

/-! ## C35: the default writers -/

/-- C35. The texts for a level are made from the names of its enumerators. -/
theorem C35_level (x : Int × String × String) (h : x ∈ levels) :
    levelName x.1 = x.2.1.toList ∧ title x.1 = x.2.1.toList.modifyHead Char.toUpper ∧
      shortened x.1 = x.2.2.toList.map Char.toUpper ∧ x.2.1.toList.head?.map Char.toUpper = some (levelChar x.1) := by
  simp only [levels, List.mem_cons, List.not_mem_nil, or_false] at h
  rcases h with rfl | rfl | rfl | rfl | rfl | rfl | rfl | rfl | rfl <;> decide

/-- C35. So different levels have different texts, and none is that of another value (except that of
`header`, which is for the header). -/
theorem C35_level_injective (l l' : Int) (hl : 0 ≤ l ∧ l ≤ 8) (hh : l' ≠ -1) :
    (levelName l = levelName l' → l = l') ∧ (title l = title l' → l = l') ∧
      (shortened l = shortened l' → l = l') ∧ (levelChar l = levelChar l' → l = l') := by
  have h1 : l = 0 ∨ l = 1 ∨ l = 2 ∨ l = 3 ∨ l = 4 ∨ l = 5 ∨ l = 6 ∨ l = 7 ∨ l = 8 := by omega
  by_cases h0 : 0 ≤ l' ∧ l' ≤ 8
  · have h2 : l' = 0 ∨ l' = 1 ∨ l' = 2 ∨ l' = 3 ∨ l' = 4 ∨ l' = 5 ∨ l' = 6 ∨ l' = 7 ∨ l' = 8 := by omega
    rcases h1 with rfl | rfl | rfl | rfl | rfl | rfl | rfl | rfl | rfl <;>
      rcases h2 with rfl | rfl | rfl | rfl | rfl | rfl | rfl | rfl | rfl <;> decide
  · have e1 : levelName l' = "unknown".toList := by unfold levelName; repeat rw [if_neg (by omega)]
    have e2 : title l' = "Unknown".toList := by unfold title; repeat rw [if_neg (by omega)]
    have e3 : shortened l' = "UNK".toList := by unfold shortened; repeat rw [if_neg (by omega)]
    have e4 : levelChar l' = '?' := by unfold levelChar; repeat rw [if_neg (by omega)]
    rw [e1, e2, e3, e4]
    rcases h1 with rfl | rfl | rfl | rfl | rfl | rfl | rfl | rfl | rfl <;>
      exact ⟨fun h => absurd h (by decide), fun h => absurd h (by decide), fun h => absurd h (by decide),
        fun h => absurd h (by decide)⟩

/-- C35. What a default log line looks like, whatever the state of the stream. -/
theorem C35_line (o : Out) (log : Record) (h : Fits log) :
    ∃ o' name, LastPart log.file name ∧ logWriter false o log = .ok o' ∧ o'.text = o.text ++
      (timeColumn log ++ '|' :: (flushRight 7 (decimal log.threadId) ++ '|' :: (flushLeft 8 (title log.level) ++
      '|' :: (flushLeft 20 (name.take 20) ++ '|' :: (flushRight 5 (decimal log.line.natAbs) ++
      '|' :: (flushLeft 20 (log.function.take 20) ++ '|' :: log.message)))))) := by
  obtain ⟨k, hk, hle, h1, h2⟩ := C74_file_name log.file [] h.file
  have hm : 0 ≤ log.micros.tmod 1000000 := Int.tmod_nonneg _ h.micros
  have hlast : LastPart log.file (log.file.drop k) := ⟨log.file.take k, by simp, h1, by
    rcases h2 with rfl | h2
    · left; simp
    · right; exact h2⟩
  unfold logWriter
  simp only [Bool.false_eq_true, if_false, hk]
  refine ⟨_, log.file.drop k, hlast, rfl, ?_⟩
  simp [Out.put, Out.setw, Out.left, Out.right, Out.setfill, Out.putTime, timeColumn, flushLeft, flushRight,
    signed_nonneg h.line.1, signed_nonneg hm]

/-- C35. The same if the source is hidden. -/
theorem C35_line_hidden (o : Out) (log : Record) (h : Fits log) :
    ∃ o', logWriter true o log = .ok o' ∧ o'.text = o.text ++
      (timeColumn log ++ '|' :: (flushRight 7 (decimal log.threadId) ++ '|' :: (flushLeft 8 (title log.level) ++
      '|' :: log.message))) := by
  refine ⟨_, rfl, ?_⟩
  have hm : 0 ≤ log.micros.tmod 1000000 := Int.tmod_nonneg _ h.micros
  simp [Out.put, Out.setw, Out.left, Out.right, Out.setfill, Out.putTime, timeColumn, flushLeft, flushRight,
    signed_nonneg hm]

set_option maxRecDepth 4000 in
/-- C35. The default header consists of two lines whose separators are where those of every
default log line are whose fields fit their columns, and "Message" begins where the messages
begin; whatever the states of the streams. -/
theorem C35_columns (hide : Bool) (o o₁ : Out) (log : Record) (h : Fits log) :
    ∃ o' line head rule, logWriter hide o log = .ok o' ∧ o'.text = o.text ++ line ∧
      (headerWriter hide o₁).text = o₁.text ++ (head ++ '\n' :: rule) ∧ '\n' ∉ head ∧ '\n' ∉ rule ∧
      (∀ k ∈ bars hide, line[k]? = some '|' ∧ head[k]? = some '|' ∧ rule[k]? = some '+') ∧
      line.drop (if hide then 44 else 92) = log.message ∧
      head.drop (if hide then 44 else 92) = "Message".toList := by
  have l1 := timeColumn_length h
  have l2 := flushRight_length (n := 7) (t := decimal log.threadId) (decimal_le (by omega) h.threadId)
  have l3 := flushLeft_length (n := 8) (title_length log.level)
  cases hide with
  | true =>
    obtain ⟨o', h1, h2⟩ := C35_line_hidden o log h
    refine ⟨o', _, "Timestamp                 |    TID|Level   |Message".toList,
      "--------------------------+-------+--------+-------".toList, h1, h2, ?_, by decide, by decide, ?_, ?_, by decide⟩
    · rw [header_before]
      exact congrArg _ (by decide)
    · intro k hk
      simp only [bars, if_true, List.mem_cons, List.not_mem_nil, or_false] at hk
      rcases hk with rfl | rfl | rfl
      · exact ⟨at_bar l1, by decide, by decide⟩
      · exact ⟨by rw [past_bar l1 (by omega)]; exact at_bar l2, by decide, by decide⟩
      · exact ⟨by rw [past_bar l1 (by omega), past_bar l2 (by omega)]; exact at_bar l3, by decide, by decide⟩
    · rw [if_pos rfl, drop_bar l1 (by omega), drop_bar l2 (by omega), drop_bar l3 (by omega)]
      rfl
  | false =>
    obtain ⟨o', name, -, h1, h2⟩ := C35_line o log h
    have l4 := flushLeft_length (n := 20) (t := name.take 20) (by simp)
    have l5 := flushRight_length (n := 5) (t := decimal log.line.natAbs)
      (decimal_le (by omega) (by have := h.line; omega))
    have l6 := flushLeft_length (n := 20) (t := log.function.take 20) (by simp)
    refine ⟨o', _,
      "Timestamp                 |    TID|Level   |File Name           | Line|Function            |Message".toList,
      "--------------------------+-------+--------+--------------------+-----+--------------------+-------".toList,
      h1, h2, ?_, by decide, by decide, ?_, ?_, by decide⟩
    · rw [header_before]
      exact congrArg _ (by decide)
    · intro k hk
      simp only [bars, Bool.false_eq_true, if_false, List.mem_cons, List.not_mem_nil, or_false] at hk
      rcases hk with rfl | rfl | rfl | rfl | rfl | rfl
      · exact ⟨at_bar l1, by decide, by decide⟩
      · exact ⟨by rw [past_bar l1 (by omega)]; exact at_bar l2, by decide, by decide⟩
      · exact ⟨by rw [past_bar l1 (by omega), past_bar l2 (by omega)]; exact at_bar l3, by decide, by decide⟩
      · exact ⟨by rw [past_bar l1 (by omega), past_bar l2 (by omega), past_bar l3 (by omega)]; exact at_bar l4,
          by decide, by decide⟩
      · exact ⟨by rw [past_bar l1 (by omega), past_bar l2 (by omega), past_bar l3 (by omega),
          past_bar l4 (by omega)]; exact at_bar l5, by decide, by decide⟩
      · exact ⟨by rw [past_bar l1 (by omega), past_bar l2 (by omega), past_bar l3 (by omega),
          past_bar l4 (by omega), past_bar l5 (by omega)]; exact at_bar l6, by decide, by decide⟩
    · rw [if_neg (by simp), drop_bar l1 (by omega), drop_bar l2 (by omega), drop_bar l3 (by omega),
        drop_bar l4 (by omega), drop_bar l5 (by omega), drop_bar l6 (by omega)]
      rfl

/-- A log entry whose fields fit. -/
def exampleRecord : Record :=
  ⟨⟨2024, 5, 17, 9, 3, 59⟩, 1715936639000042, 4711, 5, "/src/main.cpp".toList, 7, "run".toList, "hello".toList⟩

example : Fits exampleRecord :=
  ⟨by decide, by decide, by decide, by decide, by decide, by decide, by decide, by decide, by decide, by decide⟩

example : (logWriter false {} exampleRecord).toOption.map Out.text = some
    "2024-05-17 09:03:59.000042|   4711|Warning |main.cpp            |    7|run                 |hello".toList := by
  decide

/-- C35: before the epoch the microseconds are negative and need not fit. -/
theorem C35_before_epoch : (logWriter true {} { exampleRecord with micros := -1876544 }).toOption.map Out.text = some
    "2024-05-17 09:03:59.-876544|   4711|Warning |hello".toList := by
  decide

end Pluto.Props
