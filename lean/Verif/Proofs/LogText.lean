import Verif.Spec.LogText

/-! # Lemmas on the text of log entries (C26, C35) -/

namespace Pluto.LogText
open LogTextSpec

theorem life_before (ops : List Op) (h : .finish true ∉ ops) (s : Streamer) (hs : s.good = true) :
    (ops.foldl Streamer.step s).active = s.active ∧ (ops.foldl Streamer.step s).entries = s.entries ∧
      (ops.foldl Streamer.step s).text = s.text ++ streamed ops := by
  have bad : ∀ (ops : List Op) (s : Streamer), .finish true ∉ ops → s.good = false →
      ops.foldl Streamer.step s = s := by
    intro ops
    induction ops with
    | nil => intros; rfl
    | cons op ops ih =>
      intro s h hs
      simp only [List.mem_cons, not_or] at h
      have : s.step op = s := by
        cases op with
        | put text ok => simp [Streamer.step, hs]
        | finish accepts =>
          cases accepts with
          | true => exact absurd rfl h.1
          | false => simp [Streamer.step]
      rw [List.foldl_cons, this]
      exact ih s h.2 hs
  induction ops generalizing s with
  | nil => simp [streamed]
  | cons op ops ih =>
    simp only [List.mem_cons, not_or] at h
    rw [List.foldl_cons]
    cases op with
    | put text ok =>
      have hstep : s.step (.put text ok) = { s with text := s.text ++ text, good := ok } := by
        simp [Streamer.step, hs]
      rw [hstep]
      cases ok with
      | true =>
        obtain ⟨h1, h2, h3⟩ := ih h.2 { s with text := s.text ++ text, good := true } rfl
        exact ⟨h1, h2, by rw [h3]; simp [streamed]⟩
      | false => rw [bad ops _ h.2 rfl]; exact ⟨rfl, rfl, rfl⟩
    | finish accepts =>
      cases accepts with
      | true => exact absurd rfl h.1
      | false =>
        have : s.step (.finish false) = s := by simp [Streamer.step]
        rw [this]
        exact ih h.2 s hs

theorem life_after (ops : List Op) (s : Streamer) (hs : s.active = false) :
    (ops.foldl Streamer.step s).active = false ∧ (ops.foldl Streamer.step s).entries = s.entries := by
  induction ops generalizing s with
  | nil => exact ⟨hs, rfl⟩
  | cons op ops ih =>
    rw [List.foldl_cons]
    have : (s.step op).active = false ∧ (s.step op).entries = s.entries := by
      cases op with
      | put text ok => unfold Streamer.step; dsimp only; split <;> exact ⟨hs, rfl⟩
      | finish accepts => simp [Streamer.step, hs]
    rw [← this.2]
    exact ih _ this.1

theorem decimal_le {n k : Nat} (hk : 0 < k) (h : n < 10 ^ k) : (decimal n).length ≤ k :=
  (Nat.length_toDigits_le_iff (by omega) hk).2 h

theorem two_length {n : Nat} (h : n < 100) : (two n).length = 2 := by
  unfold two
  have h1 : (decimal n).length ≤ 2 := decimal_le (by omega) h
  have h0 : 0 < (decimal n).length := Nat.length_toDigits_pos
  split
  · rename_i hn
    have : (decimal n).length ≤ 1 := decimal_le (by omega) hn
    simp; omega
  · rename_i hn
    have : ¬ (decimal n).length ≤ 1 := fun h => hn ((Nat.length_toDigits_le_iff (by omega) (by omega)).1 h)
    omega

theorem time_length {log : Record} (h : Fits log) : (timeText log.localTime).length = 20 := by
  have h1 : (decimal log.localTime.year).length ≤ 4 := decimal_le (by omega) h.year.2
  have h2 : ¬ (decimal log.localTime.year).length ≤ 3 := fun hl => by
    have := (Nat.length_toDigits_le_iff (by omega) (by omega)).1 hl
    have := h.year.1
    omega
  simp only [timeText, List.length_append, List.length_cons, List.length_nil, two_length h.month,
    two_length h.day, two_length h.hour, two_length h.minute, two_length h.second]
  omega

theorem signed_nonneg {n : Int} (h : 0 ≤ n) : signed n = decimal n.natAbs := by
  unfold signed
  rw [if_neg (by omega)]

theorem title_length (level : Int) : (title level).length ≤ 8 := by
  unfold title
  repeat' split
  all_goals decide

theorem micros_length {log : Record} (h : Fits log) :
    (decimal (log.micros.tmod 1000000).natAbs).length ≤ 6 := by
  refine decimal_le (by omega) ?_
  have h1 := Int.tmod_lt_of_pos log.micros (b := 1000000) (by omega)
  have h2 := Int.tmod_nonneg (a := log.micros) 1000000 h.micros
  omega

theorem timeColumn_length {log : Record} (h : Fits log) : (timeColumn log).length = 26 := by
  have := micros_length h
  have := time_length h
  simp only [timeColumn, List.length_append, List.length_replicate]
  omega

theorem flushRight_length {n : Nat} {t : List Char} (h : t.length ≤ n) : (flushRight n t).length = n := by
  simp [flushRight]; omega

theorem flushLeft_length {n : Nat} {t : List Char} (h : t.length ≤ n) : (flushLeft n t).length = n := by
  simp [flushLeft]; omega

theorem at_bar {a b : List Char} {n : Nat} {c : Char} (h : a.length = n) : (a ++ c :: b)[n]? = some c := by
  subst h; simp

theorem past_bar {a b : List Char} {n k : Nat} {c : Char} (h : a.length = n) (hk : n < k) :
    (a ++ c :: b)[k]? = b[k - n - 1]? := by
  subst h
  rw [List.getElem?_append_right (by omega)]
  obtain ⟨j, rfl⟩ : ∃ j, k = a.length + 1 + j := ⟨k - a.length - 1, by omega⟩
  rw [show a.length + 1 + j - a.length = j + 1 by omega, List.getElem?_cons_succ]
  exact congrArg (b[·]?) (by omega)

theorem drop_bar {a b : List Char} {n k : Nat} {c : Char} (h : a.length = n) (hk : n < k) :
    (a ++ c :: b).drop k = b.drop (k - n - 1) := by
  subst h
  obtain ⟨j, rfl⟩ : ∃ j, k = a.length + (j + 1) := ⟨k - a.length - 1, by omega⟩
  rw [List.drop_append, List.drop_of_length_le (by omega), List.nil_append,
    show a.length + (j + 1) - a.length = j + 1 by omega, List.drop_succ_cons]
  exact congrArg (b.drop ·) (by omega)

/-- A stream that contained something before. -/
def before (t : List Char) (o : Out) : Out := { o with text := t ++ o.text }

theorem before_put (t x : List Char) (o : Out) : (before t o).put x = before t (o.put x) := by
  cases h : o.adjust <;> simp [before, Out.put, h]

theorem header_before (hide : Bool) (o : Out) :
    (headerWriter hide o).text = o.text ++ (headerWriter hide {}).text := by
  have h : (o.left.setfill ' ').setw 26 = before o.text (((({} : Out).left.setfill ' ').setw 26)) := by
    simp [before, Out.left, Out.setfill, Out.setw]
  have hw : ∀ t (o : Out) n, (before t o).setw n = before t (o.setw n) := fun _ _ _ => rfl
  have hl : ∀ t (o : Out), (before t o).left = before t o.left := fun _ _ => rfl
  have hr : ∀ t (o : Out), (before t o).right = before t o.right := fun _ _ => rfl
  have hf : ∀ t (o : Out) c, (before t o).setfill c = before t (o.setfill c) := fun _ _ _ => rfl
  unfold headerWriter
  cases hide <;> simp only [if_true, Bool.false_eq_true, if_false, h, before_put, hw, hl, hr, hf] <;> rfl

end Pluto.LogText
