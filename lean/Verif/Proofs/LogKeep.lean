import Verif.Proofs.LogBytes

/-! # The logger: what rotation keeps -/

namespace Pluto.Log
open Pluto.Spec.Log

/-- A gap in the numbers takes up the files that are given the next numbers. -/
theorem chainOf_gap {o o' : Nat → List Entry} {k : Nat} (h0 : o' 0 = []) (h1 : ∀ i, i < k → o' (i + 1) = o i)
    (h2 : o k = []) (h3 : ∀ i, k < i → o' i = o i) {n : Nat} (hn : k ≤ n) : chainOf o' n = chainOf o n := by
  have hlow : ∀ n, n < k → chainOf o' (n + 1) = chainOf o n := by
    intro n
    induction n with
    | zero => intro h; rw [chainOf, chainOf, chainOf, h0, h1 0 h, List.append_nil]
    | succ n ih => intro h; rw [chainOf, h1 _ h, ih (by omega), chainOf]
  have hat : chainOf o' k = chainOf o k := by
    cases k with
    | zero => rw [chainOf, chainOf, h0, h2]
    | succ k => rw [hlow k (by omega), chainOf, h2, List.nil_append]
  obtain ⟨d, rfl⟩ := Nat.exists_eq_add_of_le hn
  induction d with
  | zero => exact hat
  | succ d ih => rw [← Nat.add_assoc, chainOf, chainOf, ih (by omega), h3 _ (by omega)]

/-- If an entry written is missing, there are as many files as there may be. -/
theorem disk_kept {paths : Nat → Path} {limit : Nat} {fs : Fs} {s : State} (hsep : Distinct paths) (hfs : Fresh fs)
    (h : Reaches paths (fun σ => σ.fileRotationLimit = limit) (fun io => io.rotating = {}) fs s) (n : Nat) :
    chain s.fs (paths n) n limit = written s n ∨
      ∀ i, 1 ≤ i → i ≤ limit → read s.fs (pathAt (paths n) i) ≠ none := by
  let I : Fs → List (Nat × Entry × Bool) → Prop := fun fs ps =>
    ∀ n, chain fs (paths n) n limit = wr ps n ∨
      ∀ i, 1 ≤ i → i ≤ limit → read fs (pathAt (paths n) i) ≠ none
  have hsame : ∀ fs fs' ps, (∀ n q, own n (read fs' q) = own n (read fs q)) →
      (∀ q, read fs q ≠ none → read fs' q ≠ none) → I fs ps → I fs' ps := by
    intro fs fs' ps h1 h2 hI n
    rcases hI n with h | h
    · left; rw [chain_congr (fun i => h1 n _)]; exact h
    · exact .inr fun i h3 h4 => h2 _ (h i h3 h4)
  have hopen : ∀ {p fs fs'} ps, Opened p fs fs' → I fs ps → I fs' ps := by
    intro p fs fs' ps ho
    refine hsame fs fs' ps (fun n q => opened_own ho n q) ?_
    intro q hq
    by_cases hqp : q = p
    · subst hqp
      rcases ho.2.2 with h1 | ⟨h1, -⟩
      · rw [h1]; exact hq
      · exact absurd h1 hq
    · rw [ho.2.1 q hqp]; exact hq
  refine (disk_invariant (okIo := fun io => io.rotating = {}) (I := I)
    (J := fun _ => True) rfl (fun σ m fs fs' ps _ ho hI => hopen ps ho hI) (fun _ _ => trivial) ?_ ?_ h).1 n
  · intro σ m io l e fs ps hσ hio _ hI
    have hheader : ∀ l k' fs, I fs ps → After I (fun _ => True) m e ps
          (turnHeader σ io (paths m) l k' m e fs) := by
      intro l k' fs hI
      refine turnHeader_own (fun l b h => trivial) ?_ ?_ trivial hI
      · intro fs fs' ps h ho hp hI
        refine hsame fs fs' ps h ?_ hI
        intro q hq
        by_cases hqp : q = paths m
        · subst hqp; exact hp hq
        · rw [ho q hqp]; exact hq
      · intro fs fs' ps b h ho hp hI n
        rcases hI n with hc | hc
        · left
          rw [wr_append]
          by_cases hn : m = n
          · subst hn
            rw [chain_put (x := if m = m ∧ b = true then [e] else []) (by rw [h]; simp) ho, hc]
          · rw [chain_congr (fs := fs) (fun i => by rw [h]; simp [hn])]
            simpa [hn] using hc
        · right
          intro i h3 h4
          have hne : pathAt (paths n) i ≠ paths m := by
            intro e
            rw [← pathAt_zero (paths m)] at e
            have hp := hsep _ _ _ _ e
            rw [hp] at e
            have := pathAt_inj e
            omega
          rw [ho _ hne]
          exact hc i h3 h4
    have hrot : ∀ {fs₁ b}, rotate io.rotating (paths m) σ.fileRotationLimit fs = (fs₁, b) → I fs₁ ps := by
      intro fs₁ b hr
      obtain ⟨k, hk1, hk2⟩ := exists_first fs (paths m)
      rw [hio, show σ.fileRotationLimit = limit from hσ] at hr
      obtain ⟨fs', h1, -, h3, h4⟩ := rotate_spec (f := {}) (limit := limit) rfl rfl hk1 hk2
      rw [h1] at hr
      cases hr
      intro n
      by_cases hn : paths m = paths n
      · rw [hn] at h4 hk1 hk2
        by_cases hk : k ≤ limit
        · rcases hI n with hc | hc
          · left
            rw [← hc, chain_eq, chain_eq]
            refine chainOf_gap (k := k) ?_ ?_ ?_ ?_ hk
            · rw [h4]; rfl
            · intro i hi
              rw [h4]
              unfold rotated
              rw [if_neg (by omega), if_pos (by omega)]
              rfl
            · rw [hk2]; rfl
            · intro i hi
              rw [h4]
              unfold rotated
              rw [if_neg (by omega), if_neg (by omega), if_neg (by omega)]
          · right
            have hk0 : k = 0 := Classical.byContradiction fun hk0 => hc k (by omega) hk hk2
            subst hk0
            intro i h5 h6
            rw [h4]
            unfold rotated
            rw [if_neg (by omega), if_neg (by omega), if_neg (by omega)]
            exact hc i h5 h6
        · right
          intro i h5 h6
          rw [h4]
          unfold rotated
          rw [if_neg (by omega), if_pos (by omega)]
          exact hk1 _ (by omega)
      · have hoth : ∀ i, read fs₁ (pathAt (paths n) i) = read fs (pathAt (paths n) i) :=
          fun i => h3 _ (fun j e => hn (hsep _ _ _ _ e).symm)
        rcases hI n with hc | hc
        · left
          rw [chain_congr (fs := fs) (fun i => by rw [hoth])]
          exact hc
        · right
          intro i h5 h6
          rw [hoth]
          exact hc i h5 h6
    rcases turn_cases σ io (paths m) l m e fs with ⟨hno, ht⟩ | ⟨-, -, fs₁, b, hr, ⟨-, ht⟩ | ⟨rfl, fs₂, b', ho, ⟨-, ht⟩ | ⟨rfl, ht⟩⟩⟩ <;>
      rw [ht]
    · exact hheader _ _ _ hI
    · exact hrot hr
    · exact hopen ps (openFile_opened ho).1 (hrot hr)
    · exact hheader _ _ _ (hopen ps (openFile_opened ho).1 (hrot hr))
  · intro n
    left
    rw [chain_fresh hfs]
    rfl

end Pluto.Log
