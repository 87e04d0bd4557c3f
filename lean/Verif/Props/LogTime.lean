import Verif.Proofs.LogTime

/-! # Properties of the time stamps of a log (C135) -/

namespace Pluto.Props
open LogText LogTime LogTimeSpec

/-- C135. `gm_time` gives a date and time that exist, and they are the given second. -/
theorem C135_gm_time (s : Int) (h : -62167219200 ≤ s) :
    ∃ tm, gmTime s = some tm ∧ Exists tm ∧ seconds tm = s :=
  gmTime_spec s h

/-- C135. There is only one date and time for a second, so `gm_time` could not give another. -/
theorem C135_unique {a b : Tm} (ha : Exists a) (hb : Exists b) (h : seconds a = seconds b) : a = b := by
  have f := fields_lt (u := 0) (v := 1) ha hb (.inr ⟨h, by decide⟩)
  have g := fields_lt (u := 0) (v := 1) hb ha (.inr ⟨h.symm, by decide⟩)
  obtain ⟨⟩ := a
  obtain ⟨⟩ := b
  simp only at f g
  simp only [Tm.mk.injEq]
  omega

/-- C135. With the same offset from UTC, the time stamps of two entries, compared character by character, are ordered
as the times at which they were logged, and are the same exactly if these are in the same microsecond. Missing:
entries with different offsets, see `C135_backwards`; times before 1970, see `C35_before_epoch`. -/
theorem C135_order_partial (hide : Bool) {k t t' : Int} {zone : Int → Int} {log log' r r' : Record}
    (hk : 0 < k) (ht : 0 ≤ t) (ht' : 0 ≤ t')
    (hr : stamped k zone t log = some r) (hr' : stamped k zone t' log' = some r')
    (hz : zone (t / k / 1000000) = zone (t' / k / 1000000))
    (hy : 1000 ≤ r.localTime.year ∧ r.localTime.year < 10000)
    (hy' : 1000 ≤ r'.localTime.year ∧ r'.localTime.year < 10000)
    (hl : 0 ≤ log.line) (hl' : 0 ≤ log'.line) (hf : '\x00' ∉ log.file) (hf' : '\x00' ∉ log'.file) :
    ∃ o o', logWriter hide {} r = .ok o ∧ logWriter hide {} r' = .ok o' ∧
      (stamp o.text < stamp o'.text ↔ t / k < t' / k) ∧ (stamp o.text = stamp o'.text ↔ t / k = t' / k) := by
  obtain ⟨v, s, m, l, f, -⟩ := stamped_some hr
  obtain ⟨v', s', m', l', f', -⟩ := stamped_some hr'
  obtain ⟨p1, p2, p3⟩ := micros_parts hk ht
  obtain ⟨q1, q2, q3⟩ := micros_parts hk ht'
  have sh : Shown r := ⟨hy, v⟩
  have sh' : Shown r' := ⟨hy', v'⟩
  rw [p2] at s
  rw [q2] at s'
  rw [p1] at m
  rw [q1] at m'
  obtain ⟨o, w1, w2, -⟩ := LogRead.logWriter_eq hide {} r (by omega) (by omega) (by rw [f]; exact hf)
  obtain ⟨o', w1', w2', -⟩ := LogRead.logWriter_eq hide {} r' (by omega) (by omega) (by rw [f']; exact hf')
  simp only [List.nil_append] at w2 w2'
  refine ⟨o, o', w1, w1', ?_⟩
  rw [w2, w2', stamp_line hide sh, stamp_line hide sh']
  have u := seconds_micros p3
  have u' := seconds_micros q3
  have lt : t / k < t' / k → LogTextSpec.timeColumn r < LogTextSpec.timeColumn r' := fun h => by
    refine timeColumn_lt sh sh' ?_
    rw [m, m']
    omega
  have gt : t' / k < t / k → LogTextSpec.timeColumn r' < LogTextSpec.timeColumn r := fun h => by
    refine timeColumn_lt sh' sh ?_
    rw [m, m']
    omega
  have eq : t / k = t' / k → LogTextSpec.timeColumn r = LogTextSpec.timeColumn r' := fun h => by
    have : r.localTime = r'.localTime := C135_unique v v' (by omega)
    rw [LogTextSpec.timeColumn, LogTextSpec.timeColumn, this, m, m', h]
  rcases Int.lt_trichotomy (t / k) (t' / k) with h | h | h
  · have := lt h
    exact ⟨⟨fun _ => h, fun _ => this⟩,
      ⟨fun e => absurd (e ▸ this) (List.lt_irrefl _), fun e => absurd e (by omega)⟩⟩
  · have := eq h
    exact ⟨⟨fun e => absurd (this ▸ e) (List.lt_irrefl _), fun e => absurd e (by omega)⟩, ⟨fun _ => h, fun _ => this⟩⟩
  · have := gt h
    exact ⟨⟨fun e => absurd (List.lt_trans e this) (List.lt_irrefl _), fun e => absurd e (by omega)⟩,
      ⟨fun e => absurd (e ▸ this) (List.lt_irrefl _), fun e => absurd e (by omega)⟩⟩

/-- C135. A reader who knows how far local time was ahead of UTC finds in the line of an entry when it was logged, to
the microsecond. -/
theorem C135_when_partial (hide : Bool) {k t : Int} {zone : Int → Int} {log r : Record} (hk : 0 < k) (ht : 0 ≤ t)
    (hr : stamped k zone t log = some r) (hy : 1000 ≤ r.localTime.year ∧ r.localTime.year < 10000)
    (hl : 0 ≤ log.line) (hv : 0 ≤ log.level ∧ log.level ≤ 8) (hf : '\x00' ∉ log.file) :
    ∃ o, logWriter hide {} r = .ok o ∧ when hide o.text (zone (t / k / 1000000)) = t / k := by
  obtain ⟨v, s, m, l, f, le⟩ := stamped_some hr
  obtain ⟨p1, p2, p3⟩ := micros_parts hk ht
  have sh : Shown r := ⟨hy, v⟩
  rw [p2] at s
  rw [p1] at m
  obtain ⟨o, w1, w2, -⟩ := LogRead.logWriter_eq hide {} r (by omega) (by omega) (by rw [f]; exact hf)
  simp only [List.nil_append] at w2
  refine ⟨o, w1, ?_⟩
  unfold when
  rw [w2, LogRead.readLine_lineOf hide (sh.fits (by omega)) (by omega) (by rw [le]; exact hv)]
  have e : seconds (date (LogReadSpec.shown hide r)) = seconds r.localTime := rfl
  have e' : (LogReadSpec.shown hide r).micros = (r.micros % 1000000).toNat := rfl
  show (seconds (date (LogReadSpec.shown hide r)) - _) * 1000000 + ((LogReadSpec.shown hide r).micros : Int) = _
  rw [e, e', s, m]
  omega

/-- C135. If local time is set back between two entries, by more than the time between them, the later entry has the
smaller time stamp. -/
theorem C135_backwards (hide : Bool) {k t t' : Int} {zone : Int → Int} {log log' r r' : Record}
    (hk : 0 < k) (ht : 0 ≤ t) (ht' : 0 ≤ t')
    (hr : stamped k zone t log = some r) (hr' : stamped k zone t' log' = some r')
    (hz : t' / k / 1000000 - t / k / 1000000 < zone (t / k / 1000000) - zone (t' / k / 1000000))
    (hy : 1000 ≤ r.localTime.year ∧ r.localTime.year < 10000)
    (hy' : 1000 ≤ r'.localTime.year ∧ r'.localTime.year < 10000)
    (hl : 0 ≤ log.line) (hl' : 0 ≤ log'.line) (hf : '\x00' ∉ log.file) (hf' : '\x00' ∉ log'.file) :
    ∃ o o', logWriter hide {} r = .ok o ∧ logWriter hide {} r' = .ok o' ∧ stamp o'.text < stamp o.text := by
  obtain ⟨v, s, m, l, f, -⟩ := stamped_some hr
  obtain ⟨v', s', m', l', f', -⟩ := stamped_some hr'
  obtain ⟨p1, p2, p3⟩ := micros_parts hk ht
  obtain ⟨q1, q2, q3⟩ := micros_parts hk ht'
  have sh : Shown r := ⟨hy, v⟩
  have sh' : Shown r' := ⟨hy', v'⟩
  rw [p2] at s
  rw [q2] at s'
  rw [p1] at m
  rw [q1] at m'
  obtain ⟨o, w1, w2, -⟩ := LogRead.logWriter_eq hide {} r (by omega) (by omega) (by rw [f]; exact hf)
  obtain ⟨o', w1', w2', -⟩ := LogRead.logWriter_eq hide {} r' (by omega) (by omega) (by rw [f']; exact hf')
  simp only [List.nil_append] at w2 w2'
  refine ⟨o, o', w1, w1', ?_⟩
  rw [w2, w2', stamp_line hide sh, stamp_line hide sh']
  exact timeColumn_lt sh' sh (.inl (by omega))

/-- Central European time around the end of summer time in 2024: 2024-10-27 01:00 UTC. -/
def exampleZone (s : Int) : Int := if s < 1729990800 then 7200 else 3600

/-- An entry; the time is filled in. -/
def exampleEntry : Record :=
  ⟨⟨0, 0, 0, 0, 0, 0⟩, 0, 4711, 5, "/src/main.cpp".toList, 7, "run".toList, "hello".toList⟩

/-- The line of an entry logged at a number of nanoseconds since 1970. -/
def exampleLine (t : Int) : Option (List Char) :=
  (stamped 1000 exampleZone t exampleEntry).bind fun r => (logWriter true {} r).toOption.map Out.text

set_option maxRecDepth 8000 in
/-- C135. When summer time ends, an entry logged half an hour later has the smaller time stamp, and one logged an hour
later the same. -/
theorem C135_fails :
    exampleLine 1729989900000000000 = some "2024-10-27 02:45:00.000000|   4711|Warning |hello".toList ∧
    exampleLine 1729991700000000000 = some "2024-10-27 02:15:00.000000|   4711|Warning |hello".toList ∧
    exampleLine 1729993500000000000 = some "2024-10-27 02:45:00.000000|   4711|Warning |hello".toList := by
  decide

set_option maxRecDepth 8000 in
example : gmTime (-62167219200) = some ⟨0, 1, 1, 0, 0, 0⟩ ∧ gmTime (-1) = some ⟨1969, 12, 31, 23, 59, 59⟩ ∧
    gmTime 951782400 = some ⟨2000, 2, 29, 0, 0, 0⟩ ∧ gmTime 4107542400 = some ⟨2100, 3, 1, 0, 0, 0⟩ := by decide

set_option maxRecDepth 8000 in
/-- The hypotheses of the theorems hold for the entries of `C135_fails`. -/
example : ∃ r r', stamped 1000 exampleZone 1729989900000000000 exampleEntry = some r ∧
    stamped 1000 exampleZone 1729991700000000000 exampleEntry = some r' ∧
    (1000 ≤ r.localTime.year ∧ r.localTime.year < 10000) ∧ (1000 ≤ r'.localTime.year ∧ r'.localTime.year < 10000) ∧
    (1729991700000000000 / 1000 / 1000000 - 1729989900000000000 / 1000 / 1000000 : Int) <
      exampleZone (1729989900000000000 / 1000 / 1000000) - exampleZone (1729991700000000000 / 1000 / 1000000) ∧
    exampleZone (1729989900000000000 / 1000 / 1000000) = exampleZone (1729989900000001000 / 1000 / 1000000) ∧
    0 ≤ exampleEntry.line ∧ '\x00' ∉ exampleEntry.file :=
  ⟨_, _, rfl, rfl, by decide, by decide, by decide, by decide, by decide, by decide⟩

end Pluto.Props
