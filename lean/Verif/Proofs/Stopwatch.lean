import Verif.Model.Stopwatch
import Verif.Spec.Stopwatch
import Mathlib.Tactic.Ring
import Mathlib.Tactic.NormNum

/-! # Lemmas on the stopwatch (C38-C40) -/

namespace Pluto.Stopwatch
open StopwatchSpec

theorem onAt_append_lt (h : List (Int × Call)) (e : Int × Call) (k : Int) (hk : k < e.1) :
    onAt (h ++ [e]) k = onAt h k := by
  unfold onAt
  rw [List.filter_append, List.filter_cons_of_neg (by simpa using hk), List.filter_nil,
    List.append_nil]

theorem onAt_append_ge (h : List (Int × Call)) (e : Int × Call) (k : Int) (hk : e.1 ≤ k) :
    onAt (h ++ [e]) k = turnsOn e.2 := by
  unfold onAt
  rw [List.filter_append, List.filter_cons_of_pos (by simpa using hk), List.filter_nil,
    List.getLast?_append]
  rfl

theorem ticksOn_append (h : List (Int × Call)) (e : Int × Call) (first now : Int)
    (h1 : first ≤ e.1) (h2 : e.1 ≤ now) :
    (ticksOn (h ++ [e]) first now : Int) =
      ticksOn h first e.1 + if turnsOn e.2 then now - e.1 else 0 := by
  unfold ticksOn
  obtain ⟨a, ha⟩ : ∃ a : Nat, e.1 = first + a := ⟨(e.1 - first).toNat, by omega⟩
  obtain ⟨b, hb⟩ : ∃ b : Nat, now = e.1 + b := ⟨(now - e.1).toNat, by omega⟩
  have e1 : (now - first).toNat = a + b := by omega
  have e2 : (e.1 - first).toNat = a := by omega
  rw [e1, e2, List.range_add, List.countP_append, List.countP_map]
  have c1 : (List.range a).countP (fun i : Nat => onAt (h ++ [e]) (first + (i : Int))) =
      (List.range a).countP (fun i : Nat => onAt h (first + (i : Int))) := by
    apply List.countP_congr
    intro i hi
    rw [List.mem_range] at hi
    rw [onAt_append_lt _ _ _ (by omega)]
  have c2 : (List.range b).countP ((fun i : Nat => onAt (h ++ [e]) (first + (i : Int))) ∘ (a + ·)) =
      (List.range b).countP (fun _ => turnsOn e.2) := by
    apply List.countP_congr
    intro i _
    simp only [Function.comp]
    rw [onAt_append_ge _ _ _ (by omega)]
  rw [c1, c2]
  cases turnsOn e.2
  · simp
  · simp only [List.countP_true, List.length_range, if_true]
    omega

theorem timeAt_call (s : State) (c : Call) (t now : Int)
    (hc : c ≠ .reset ∧ c ≠ .restart) :
    timeAt (call s c t) now = timeAt s t + if turnsOn c then now - t else 0 := by
  cases c
  · cases hr : s.running <;> simp [call, start, timeAt, turnsOn, hr]
    omega
  · cases hr : s.running <;> simp [call, stop, timeAt, turnsOn, hr]
  · cases hr : s.running <;> simp [call, stopAndTime, stop, timeAt, turnsOn, hr]
  · exact absurd rfl hc.1
  · exact absurd rfl hc.2

theorem isRunning_call (s : State) (c : Call) (t : Int) :
    isRunning (call s c t) = turnsOn c := by
  cases c
  · cases hr : s.running <;> simp [call, start, isRunning, turnsOn, hr]
  · cases hr : s.running <;> simp [call, stop, isRunning, turnsOn, hr]
  · cases hr : s.running <;> simp [call, stopAndTime, stop, isRunning, turnsOn, hr]
  · rfl
  · rfl

theorem measured (s : State) (e : Int × Call) (later : List (Int × Call))
    (hfirst : (e.2 = .reset ∨ e.2 = .restart) ∨ s = {})
    (hlater : ∀ f ∈ later, f.2 ≠ .reset ∧ f.2 ≠ .restart)
    (hmono : MonotoneClock (e :: later)) (now : Int) (hnow : ∀ f ∈ e :: later, f.1 ≤ now) :
    timeAt (run s (e :: later)) now = ticksOn (e :: later) e.1 now := by
  induction hn : later.length generalizing later now with
  | zero =>
    have : later = [] := List.eq_nil_of_length_eq_zero hn
    subst this
    have h := ticksOn_append [] e e.1 now (Int.le_refl _) (hnow e (by simp))
    rw [List.nil_append] at h
    rw [h]
    have h0 : ticksOn [] e.1 e.1 = 0 := by simp [ticksOn]
    rw [h0, Nat.cast_zero, zero_add]
    obtain ⟨t, c⟩ := e
    rcases hfirst with (h | h) | h
    · simp only at h; subst h; simp [run, call, reset, timeAt, turnsOn]
    · simp only at h; subst h; simp [run, call, restart, timeAt, turnsOn]
    · subst h; cases c <;>
        simp [run, call, start, stop, stopAndTime, reset, restart, timeAt, turnsOn]
  | succ n ih =>
    have hne : later ≠ [] := by rintro rfl; simp at hn
    obtain ⟨pre, f, rfl⟩ : ∃ pre f, later = pre ++ [f] :=
      ⟨later.dropLast, later.getLast hne, (List.dropLast_concat_getLast hne).symm⟩
    have hf := hlater f (by simp)
    have hmono' : MonotoneClock ((e :: pre) ++ [f]) := by simpa using hmono
    unfold MonotoneClock at hmono'
    rw [List.pairwise_append] at hmono'
    have hle : ∀ g ∈ e :: pre, g.1 ≤ f.1 := fun g hg => hmono'.2.2 g hg f (by simp)
    have := ih pre (fun g hg => hlater g (by simp [hg])) hmono'.1 f.1 hle (by simpa using hn)
    rw [← List.cons_append, ticksOn_append _ _ _ _ (hle e (by simp)) (hnow f (by simp)), ← this]
    rw [run, List.foldl_append]
    exact timeAt_call _ _ _ _ hf

theorem tdiv_tdiv_lit (n : Int) (a b : Nat) :
    n.tdiv ((a * b : Nat) : Int) = (n.tdiv a).tdiv b := by
  rcases Int.le_total 0 n with h | h
  · rw [Int.tdiv_eq_ediv_of_nonneg h, Int.tdiv_eq_ediv_of_nonneg h,
      Int.tdiv_eq_ediv_of_nonneg (Int.ediv_nonneg h (Int.natCast_nonneg a)), Int.ediv_ediv_of_nonneg (by omega),
      Int.natCast_mul]
  · obtain ⟨m, rfl⟩ : ∃ m, n = -m := ⟨-n, by omega⟩
    have h : 0 ≤ m := by omega
    rw [Int.neg_tdiv, Int.neg_tdiv, Int.neg_tdiv, Int.tdiv_eq_ediv_of_nonneg h,
      Int.tdiv_eq_ediv_of_nonneg h, Int.tdiv_eq_ediv_of_nonneg (Int.ediv_nonneg h (Int.natCast_nonneg a)),
      Int.ediv_ediv_of_nonneg (Int.natCast_nonneg a), Int.natCast_mul]

theorem timeAt_mono (w : State) {t t' : Int} (h : t ≤ t') : timeAt w t ≤ timeAt w t' := by
  unfold timeAt
  split <;> omega

theorem readings (tick : Nat) (w : State) {t1 t2 t3 t4 t5 t6 : Int} (h0 : 0 ≤ timeAt w t1) (h1 : t1 ≤ t2)
    (h2 : t2 ≤ t3) (h3 : t3 ≤ t4) (h4 : t4 ≤ t5) (h5 : t5 ≤ t6) :
    ∃ n1 n2 n3 n4 n5 n6 : Int, (timeAt w t1 * tick = n1 ∧ timeAt w t2 * tick = n2 ∧ timeAt w t3 * tick = n3 ∧
      timeAt w t4 * tick = n4 ∧ timeAt w t5 * tick = n5 ∧ timeAt w t6 * tick = n6) ∧
      0 ≤ n1 ∧ n1 ≤ n2 ∧ n2 ≤ n3 ∧ n3 ≤ n4 ∧ n4 ≤ n5 ∧ n5 ≤ n6 := by
  have m : ∀ {t t' : Int}, t ≤ t' → timeAt w t * (tick : Int) ≤ timeAt w t' * tick := fun h =>
    Int.mul_le_mul_of_nonneg_right (timeAt_mono w h) (by omega)
  exact ⟨_, _, _, _, _, _, ⟨rfl, rfl, rfl, rfl, rfl, rfl⟩, Int.mul_nonneg h0 (by omega), m h1, m h2, m h3, m h4, m h5⟩

theorem whole {n u : Int} (h : 0 ≤ n) : n.tdiv u = n / u := Int.tdiv_eq_ediv_of_nonneg h

theorem part {n : Int} {u : Int} {r : Int} (h : 0 ≤ n) (hu : 0 ≤ u := by decide) :
    (n.tdiv u).tmod r = n / u % r := by
  rw [Int.tdiv_eq_ediv_of_nonneg h, Int.tmod_eq_emod_of_nonneg (Int.ediv_nonneg h hu)]

end Pluto.Stopwatch
