import Verif.Spec.UtfStr
import Verif.Spec.Seq
import Verif.Spec.Str
import Verif.Proofs.Unicode
import Verif.Proofs.Str
import Verif.Proofs.Seq

/-!
# Lemmas on encoded text (C127)
-/

namespace Pluto.UtfProofs

open Spec StrSpec Unicode Str

variable {β : Type}

theorem encode_nil (enc : Char → List β) : encode enc [] = [] := rfl

theorem encode_cons (enc : Char → List β) (c : Char) (s : List Char) :
    encode enc (c :: s) = enc c ++ encode enc s := rfl

theorem encode_append (enc : Char → List β) (s t : List Char) :
    encode enc (s ++ t) = encode enc s ++ encode enc t := by
  simp [encode]

theorem mem_encode {enc : Char → List β} {s : List Char} {u : β} :
    u ∈ encode enc s ↔ ∃ c ∈ s, u ∈ enc c := by
  simp [encode]

/-! ## The encodings are self-synchronising -/

/-- Every character starts with a lead unit, and has no other. -/
def Leads (enc : Char → List β) (lead : β → Bool) : Prop :=
  ∀ c, ∃ l r, enc c = l :: r ∧ lead l = true ∧ ∀ u ∈ r, lead u = false

theorem boundary {enc : Char → List β} {lead : β → Bool} (h : Leads enc lead) (s : List Char) (a rest : List β)
    (hr : ∀ u t, rest = u :: t → lead u = true) (e : encode enc s = a ++ rest) :
    ∃ s₁ s₂, s = s₁ ++ s₂ ∧ a = encode enc s₁ ∧ rest = encode enc s₂ := by
  induction s generalizing a with
  | nil =>
    have e : [] = a ++ rest := e
    have := List.append_eq_nil_iff.1 e.symm
    exact ⟨[], [], rfl, this.1, this.2⟩
  | cons c s ih =>
    cases a with
    | nil => exact ⟨[], c :: s, rfl, rfl, e.symm⟩
    | cons x a =>
      rw [encode_cons] at e
      rcases List.append_eq_append_iff.1 e with ⟨a', h1, h2⟩ | ⟨c', h1, h2⟩
      · obtain ⟨s₁, s₂, rfl, rfl, h5⟩ := ih a' h2
        exact ⟨c :: s₁, s₂, rfl, h1, h5⟩
      · cases c' with
        | nil =>
          refine ⟨[c], s, rfl, ?_, by simpa using h2⟩
          rw [encode_cons, h1]; simp [encode_nil]
        | cons y c' =>
          obtain ⟨l, r, h3, -, h5⟩ := h c
          rw [h3] at h1
          simp only [List.cons_append, List.cons.injEq] at h1
          have := h5 y (by rw [h1.2]; simp)
          have := hr y _ h2
          simp_all

theorem prefix_text {enc : Char → List β} (hne : ∀ c, enc c ≠ []) (hpf : PrefixFree enc) (n s : List Char)
    (b : List β) (e : encode enc s = encode enc n ++ b) : ∃ s₂, s = n ++ s₂ ∧ b = encode enc s₂ := by
  induction n generalizing s with
  | nil => exact ⟨s, rfl, e.symm⟩
  | cons d n ih =>
    cases s with
    | nil =>
      have e : [] = enc d ++ encode enc n ++ b := e
      have := List.append_eq_nil_iff.1 e.symm
      exact absurd (List.append_eq_nil_iff.1 this.1).1 (hne d)
    | cons c s =>
      rw [encode_cons, encode_cons, List.append_assoc] at e
      have : c = d := hpf c d (enc c ++ encode enc s) ⟨_, rfl⟩ ⟨_, e.symm⟩
      subst this
      obtain ⟨s₂, rfl, h⟩ := ih s (List.append_cancel_left e)
      exact ⟨s₂, rfl, h⟩

theorem selfSync_of_leads {enc : Char → List β} {lead : β → Bool} (h : Leads enc lead) (hpf : PrefixFree enc) :
    SelfSync enc := by
  intro s n a b hn e
  have hne : ∀ c, enc c ≠ [] := by
    intro c; obtain ⟨l, r, h1, -⟩ := h c; simp [h1]
  rw [List.append_assoc] at e
  obtain ⟨s₁, s', rfl, h1, h2⟩ := boundary h s a _ (by
    intro u t hu
    cases n with
    | nil => exact absurd rfl hn
    | cons c n =>
      obtain ⟨l, r, h1, h2, -⟩ := h c
      rw [encode_cons, h1] at hu
      simp only [List.cons_append, List.cons.injEq] at hu
      rw [← hu.1]; exact h2) e
  obtain ⟨s₂, rfl, h3⟩ := prefix_text hne hpf n s' b h2.symm
  exact ⟨s₁, s₂, by simp, h1, h3⟩

theorem u8_toNat {n : Nat} (h : n < 256) : (UInt8.ofNat n).toNat = n := by
  rw [UInt8.toNat_ofNat']; omega

theorem u16_toNat {n : Nat} (h : n < 65536) : (UInt16.ofNat n).toNat = n := by
  rw [UInt16.toNat_ofNat']; omega

/-- A byte that does not continue a character. -/
def lead8 (u : UInt8) : Bool := decide (u.toNat < 0x80 ∨ 0xC0 ≤ u.toNat)

/-- A UTF-16 unit that does not continue a character. -/
def lead16 (u : UInt16) : Bool := decide (u.toNat < 0xDC00 ∨ 0xE000 ≤ u.toNat)

theorem leads8 : Leads enc8 lead8 := by
  intro c
  have hv := char_valid c
  rw [enc8_eq]
  split
  · exact ⟨_, _, rfl, by simp only [lead8, decide_eq_true_eq]; rw [u8_toNat (by omega)]; omega, by simp⟩
  split
  · refine ⟨_, _, rfl, by simp only [lead8, decide_eq_true_eq]; rw [u8_toNat (by omega)]; omega, ?_⟩
    simp only [List.mem_cons, List.not_mem_nil, or_false, forall_eq, lead8, decide_eq_false_iff_not]
    rw [u8_toNat (by omega)]; omega
  split
  · refine ⟨_, _, rfl, by simp only [lead8, decide_eq_true_eq]; rw [u8_toNat (by omega)]; omega, ?_⟩
    simp only [List.mem_cons, List.not_mem_nil, or_false, forall_eq_or_imp, forall_eq, lead8,
      decide_eq_false_iff_not]
    rw [u8_toNat (by omega), u8_toNat (by omega)]; omega
  · refine ⟨_, _, rfl, by simp only [lead8, decide_eq_true_eq]; rw [u8_toNat (by omega)]; omega, ?_⟩
    simp only [List.mem_cons, List.not_mem_nil, or_false, forall_eq_or_imp, forall_eq, lead8,
      decide_eq_false_iff_not]
    rw [u8_toNat (by omega), u8_toNat (by omega), u8_toNat (by omega)]; omega

/-- The bytes of a character that is not ASCII are all from 0x80 on. -/
theorem high_units {c : Char} (hc : ¬ c.toNat < 0x80) {u : UInt8} (hu : u ∈ enc8 c) : 0x80 ≤ u.toNat := by
  have hv := char_valid c
  rw [enc8_eq, if_neg hc] at hu
  split at hu
  · simp only [List.mem_cons, List.not_mem_nil, or_false] at hu
    rcases hu with rfl | rfl <;> rw [u8_toNat (by omega)] <;> omega
  split at hu
  · simp only [List.mem_cons, List.not_mem_nil, or_false] at hu
    rcases hu with rfl | rfl | rfl <;> rw [u8_toNat (by omega)] <;> omega
  · simp only [List.mem_cons, List.not_mem_nil, or_false] at hu
    rcases hu with rfl | rfl | rfl | rfl <;> rw [u8_toNat (by omega)] <;> omega

theorem leads16 : Leads enc16 lead16 := by
  intro c
  have hv := char_valid c
  unfold enc16
  split
  · exact ⟨_, _, rfl, by simp only [lead16, decide_eq_true_eq]; rw [u16_toNat (by omega)]; omega, by simp⟩
  · refine ⟨_, _, rfl, by simp only [lead16, decide_eq_true_eq]; rw [u16_toNat (by omega)]; omega, ?_⟩
    simp only [List.mem_cons, List.not_mem_nil, or_false, forall_eq, lead16, decide_eq_false_iff_not]
    rw [u16_toNat (by omega)]; omega

theorem leads32 : Leads enc32 fun _ => true := fun c => ⟨c.val, [], rfl, rfl, by simp⟩

/-! ## Consequences -/

theorem _root_.Pluto.Spec.SelfSync.ne_nil {enc : Char → List β} (h : SelfSync enc) (c : Char) : enc c ≠ [] := by
  intro e
  obtain ⟨s₁, s₂, h1, -⟩ := h [] [c] [] [] (by simp) (by simp [encode, e])
  simp at h1

theorem _root_.Pluto.Spec.SelfSync.eq_nil {enc : Char → List β} (h : SelfSync enc) {s : List Char} (e : encode enc s = []) :
    s = [] := by
  cases s with
  | nil => rfl
  | cons c s =>
    rw [encode_cons] at e
    exact absurd (List.append_eq_nil_iff.1 e).1 (h.ne_nil c)

theorem _root_.Pluto.Spec.SelfSync.inj {enc : Char → List β} (h : SelfSync enc) {s t : List Char}
    (e : encode enc s = encode enc t) : s = t := by
  by_cases ht : t = []
  · subst ht; exact h.eq_nil e
  · obtain ⟨s₁, s₂, rfl, h1, h2⟩ := h s t [] [] ht (by simpa using e)
    rw [h.eq_nil h1.symm, h.eq_nil h2.symm]; simp

/-- A character of one unit shares it with no other character. -/
theorem _root_.Pluto.Spec.SelfSync.whole {enc : Char → List β} (h : SelfSync enc) {c d : Char} {u : β} (hc : enc c = [u])
    (hd : u ∈ enc d) : d = c := by
  obtain ⟨a, b, hab⟩ := List.append_of_mem hd
  obtain ⟨s₁, s₂, h1, -⟩ := h [d] [c] a b (by simp) (by simp [encode, hc, hab])
  have hl := congrArg List.length h1
  simp only [List.length_cons, List.length_nil, List.length_append] at hl
  have e1 : s₁ = [] := List.eq_nil_of_length_eq_zero (by omega)
  subst e1
  simp only [List.nil_append, List.cons_append, List.cons.injEq] at h1
  exact h1.1

theorem single {enc : Char → List β} {c : Char} (h : (enc c).length = 1) : ∃ u, enc c = [u] :=
  List.length_eq_one_iff.1 h

theorem _root_.Pluto.Spec.SelfSync.mem_set {enc : Char → List β} (h : SelfSync enc) {set : List Char}
    (hset : ∀ c ∈ set, (enc c).length = 1) {c : Char} {u : β} (hu : u ∈ enc c) :
    u ∈ encode enc set ↔ c ∈ set := by
  rw [mem_encode]
  constructor
  · rintro ⟨d, hd, hud⟩
    obtain ⟨v, hv⟩ := single (hset d hd)
    rw [hv, List.mem_singleton] at hud
    subst hud
    rw [h.whole hv hu]; exact hd
  · intro hc; exact ⟨c, hc, hu⟩

/-! ## Joining and reading -/

theorem join_map (enc : Char → List β) (ps : List (List Char)) (sep : List Char) :
    join (ps.map (encode enc)) (encode enc sep) = encode enc (join ps sep) := by
  cases ps with
  | nil => rfl
  | cons p ps =>
    rw [List.map_cons, join_cons, join_cons, encode_append]
    congr 1
    induction ps with
    | nil => rfl
    | cons q ps ih => simp only [List.map_cons, List.flatten_cons, encode_append, ih]

theorem _root_.Pluto.Spec.SelfSync.contains {enc : Char → List β} (h : SelfSync enc) {x s : List Char} (hx : x ≠ []) :
    Contains (encode enc x) (encode enc s) ↔ Contains x s := by
  constructor
  · rintro ⟨i, a, b, e, -⟩
    obtain ⟨s₁, s₂, h1, -⟩ := h s x a b hx e
    exact ⟨_, s₁, s₂, h1, rfl⟩
  · rintro ⟨i, a, b, rfl, -⟩
    exact ⟨_, encode enc a, encode enc b, by simp [encode_append], rfl⟩

theorem _root_.Pluto.Spec.SelfSync.readable {enc : Char → List β} (h : SelfSync enc) {sep : List Char} (hs : sep ≠ [])
    {ps : List (List Char)} (hr : Readable sep ps) : Readable (encode enc sep) (ps.map (encode enc)) := by
  induction ps with
  | nil => exact hr
  | cons p ps ih =>
    cases ps with
    | nil =>
      have hr : ¬ Contains sep p := hr
      show ¬ Contains (encode enc sep) (encode enc p)
      rwa [h.contains hs]
    | cons q ps =>
      have hr : (∀ i, Occurs sep (p ++ sep) i → i = p.length) ∧ Readable sep (q :: ps) := hr
      refine ⟨?_, ih hr.2⟩
      rintro i ⟨a, b, e, rfl⟩
      rw [← encode_append] at e
      obtain ⟨s₁, s₂, h1, rfl, -⟩ := h _ sep a b hs e
      have hl := hr.1 _ ⟨s₁, s₂, h1, rfl⟩
      have : s₁ = p := by
        have h2 : s₁ ++ (sep ++ s₂) = p ++ sep := by rw [h1, List.append_assoc]
        exact (List.append_inj h2 hl).1
      rw [this]

/-! ## Runs and stripping -/

theorem Runs.gaps_append {gap : β → Bool} {g s : List β} {ps : List (List β)} (hg : ∀ c ∈ g, gap c = true)
    (h : Runs gap s ps) : Runs gap (g ++ s) ps := by
  cases h with
  | none g' hg' =>
    refine .none _ ?_
    intro c hc
    rcases List.mem_append.1 hc with hc | hc
    · exact hg c hc
    · exact hg' c hc
  | last g' p hg' hp hn =>
    rw [← List.append_assoc]
    refine .last _ p ?_ hp hn
    intro c hc
    rcases List.mem_append.1 hc with hc | hc
    · exact hg c hc
    · exact hg' c hc
  | more g' p c s ps hg' hp hn hc rest =>
    have e : g ++ (g' ++ p ++ c :: s) = (g ++ g') ++ p ++ c :: s := by simp
    rw [e]
    refine .more _ p c s ps ?_ hp hn hc rest
    intro c hc
    rcases List.mem_append.1 hc with hc | hc
    · exact hg c hc
    · exact hg' c hc

theorem agrees_all {enc : Char → List β} {f : Char → Bool} {g : β → Bool} (ha : Agrees enc f g) {s : List Char}
    {b : Bool} (h : ∀ c ∈ s, f c = b) : ∀ u ∈ encode enc s, g u = b := by
  intro u hu
  obtain ⟨c, hc, hu⟩ := mem_encode.1 hu
  rw [ha c u hu, h c hc]

theorem runs_encode {enc : Char → List β} (hne : ∀ c, enc c ≠ []) {f : Char → Bool} {g : β → Bool}
    (ha : Agrees enc f g) {s : List Char} {ps : List (List Char)} (h : Runs f s ps) :
    Runs g (encode enc s) (ps.map (encode enc)) := by
  have hn : ∀ p : List Char, p ≠ [] → encode enc p ≠ [] := by
    intro p hp e
    cases p with
    | nil => exact hp rfl
    | cons c p => rw [encode_cons] at e; exact hne c (List.append_eq_nil_iff.1 e).1
  induction h with
  | none x hx => exact .none _ (agrees_all ha hx)
  | last x p hx hp hq =>
    rw [encode_append]
    exact .last _ _ (agrees_all ha hx) (hn p hp) (agrees_all ha hq)
  | more x p c s ps hx hp hq hc rest ih =>
    rw [encode_append, encode_append, encode_cons, List.map_cons]
    obtain ⟨l, r, e⟩ := List.exists_cons_of_ne_nil (hne c)
    rw [e, List.cons_append]
    refine .more _ _ l _ _ (agrees_all ha hx) (hn p hp) (agrees_all ha hq) ?_ ?_
    · rw [ha c l (by simp [e]), hc]
    · refine Runs.gaps_append ?_ ih
      intro u hu
      rw [ha c u (by simp [e, hu]), hc]

theorem head_encode {enc : Char → List β} (hne : ∀ c, enc c ≠ []) {r : List Char} {u : β}
    (h : (encode enc r).head? = some u) : ∃ c, r.head? = some c ∧ u ∈ enc c := by
  cases r with
  | nil => simp [encode_nil] at h
  | cons c r =>
    refine ⟨c, rfl, ?_⟩
    obtain ⟨l, t, e⟩ := List.exists_cons_of_ne_nil (hne c)
    rw [encode_cons, e] at h
    simp only [List.cons_append, List.head?_cons, Option.some.injEq] at h
    simp [e, h]

theorem last_encode {enc : Char → List β} (hne : ∀ c, enc c ≠ []) {r : List Char} {u : β}
    (h : (encode enc r).getLast? = some u) : ∃ c, r.getLast? = some c ∧ u ∈ enc c := by
  rcases List.eq_nil_or_concat r with rfl | ⟨r, c, rfl⟩
  · simp [encode_nil] at h
  · refine ⟨c, by simp, ?_⟩
    rw [List.concat_eq_append, encode_append, encode_cons, encode_nil, List.append_nil,
      List.getLast?_append_of_ne_nil _ (hne c)] at h
    exact List.mem_of_getLast? h

theorem leftStripped_encode {enc : Char → List β} (hne : ∀ c, enc c ≠ []) {f : Char → Bool} {g : β → Bool}
    (ha : Agrees enc f g) {s r : List Char} (h : LeftStripped f s r) :
    LeftStripped g (encode enc s) (encode enc r) := by
  obtain ⟨⟨a, rfl, h1⟩, h2⟩ := h
  refine ⟨⟨encode enc a, encode_append .., agrees_all ha h1⟩, ?_⟩
  intro u hu
  obtain ⟨c, hc, hu⟩ := head_encode hne hu
  rw [ha c u hu, h2 c hc]

theorem rightStripped_encode {enc : Char → List β} (hne : ∀ c, enc c ≠ []) {f : Char → Bool} {g : β → Bool}
    (ha : Agrees enc f g) {s r : List Char} (h : RightStripped f s r) :
    RightStripped g (encode enc s) (encode enc r) := by
  obtain ⟨⟨b, rfl, h1⟩, h2⟩ := h
  refine ⟨⟨encode enc b, encode_append .., agrees_all ha h1⟩, ?_⟩
  intro u hu
  obtain ⟨c, hc, hu⟩ := last_encode hne hu
  rw [ha c u hu, h2 c hc]

theorem stripped_encode {enc : Char → List β} (hne : ∀ c, enc c ≠ []) {f : Char → Bool} {g : β → Bool}
    (ha : Agrees enc f g) {s r : List Char} (h : Stripped f s r) :
    Stripped g (encode enc s) (encode enc r) := by
  obtain ⟨⟨a, b, rfl, h1, h2⟩, h3, h4⟩ := h
  refine ⟨⟨encode enc a, encode enc b, by simp [encode_append], agrees_all ha h1, agrees_all ha h2⟩, ?_, ?_⟩
  · intro u hu
    obtain ⟨c, hc, hu⟩ := head_encode hne hu
    rw [ha c u hu, h3 c hc]
  · intro u hu
    obtain ⟨c, hc, hu⟩ := last_encode hne hu
    rw [ha c u hu, h4 c hc]

theorem map_encode {enc : Char → List β} {f : Char → Char} {g : β → β} (h : Commutes enc f g) (s : List Char) :
    (encode enc s).map g = encode enc (s.map f) := by
  simp only [encode, List.map_flatMap, List.flatMap_map]
  congr 1
  funext c
  exact h c

/-! ## Positions -/

theorem firstOr_unique {P : Nat → Prop} {last i j : Nat} (hi : SeqSpec.FirstOr P last i)
    (hj : SeqSpec.FirstOr P last j) : i = j := by
  rcases hi with ⟨hi, hi'⟩ | ⟨rfl, hi⟩ <;> rcases hj with ⟨hj, hj'⟩ | ⟨rfl, hj⟩
  · rcases Nat.lt_trichotomy i j with h | h | h
    · exact absurd hi (hj' i h)
    · exact h
    · exact absurd hj (hi' j h)
  · exact absurd hi (hj i)
  · exact absurd hj (hi j)
  · rfl

theorem lastOr_unique {P : Nat → Prop} {last i j : Nat} (hi : SeqSpec.LastOr P last i)
    (hj : SeqSpec.LastOr P last j) : i = j := by
  rcases hi with ⟨hi, hi'⟩ | ⟨rfl, hi⟩ <;> rcases hj with ⟨hj, hj'⟩ | ⟨rfl, hj⟩
  · rcases Nat.lt_trichotomy i j with h | h | h
    · exact absurd hj (hi' j h)
    · exact h
    · exact absurd hi (hj' i h)
  · exact absurd hi (hj i)
  · exact absurd hj (hi j)
  · rfl

theorem encode_take_mono (enc : Char → List β) (s : List Char) {i j : Nat} (h : i ≤ j) :
    (encode enc (s.take i)).length ≤ (encode enc (s.take j)).length := by
  have e : s.take j = s.take i ++ (s.take j).drop i := by
    have := (List.take_append_drop i (s.take j)).symm
    rwa [List.take_take, Nat.min_eq_left h] at this
  rw [e, encode_append, List.length_append]
  omega

theorem matchesAt_eq {α : Type} [DecidableEq α] {l r : List α} {i : Nat} :
    SeqSpec.MatchesAt (· == ·) l r i ↔ ∃ a b, l = a ++ r ++ b ∧ a.length = i := by
  have hf : ∀ m r : List α, List.Forall₂ (fun l r => (l == r) = true) m r ↔ m = r := by
    intro m r
    simp only [beq_iff_eq]
    exact Seq.forall₂_eq
  constructor
  · rintro ⟨a, m, b, h1, h2, h3⟩
    rw [(hf m r).1 h3] at h1
    exact ⟨a, b, h1, h2⟩
  · rintro ⟨a, b, h1, h2⟩
    exact ⟨a, r, b, h1, h2, (hf r r).2 rfl⟩

theorem firstOr_nil {α : Type} [DecidableEq α] (l : List α) :
    SeqSpec.FirstOr (SeqSpec.MatchesAt (· == ·) l []) l.length 0 :=
  .inl ⟨matchesAt_eq.2 ⟨[], l, rfl, rfl⟩, fun j hj => absurd hj (by omega)⟩

theorem lastOr_nil {α : Type} [DecidableEq α] (l : List α) :
    SeqSpec.LastOr (SeqSpec.MatchesAt (· == ·) l []) l.length l.length := by
  refine .inl ⟨matchesAt_eq.2 ⟨l, [], by simp, rfl⟩, ?_⟩
  intro j hj hm
  obtain ⟨a, b, e, rfl⟩ := matchesAt_eq.1 hm
  rw [e] at hj
  simp at hj
  omega

theorem _root_.Pluto.Spec.SelfSync.matchesAt [DecidableEq β] {enc : Char → List β} (h : SelfSync enc) {s n : List Char} (hn : n ≠ [])
    {i : Nat} : SeqSpec.MatchesAt (· == ·) (encode enc s) (encode enc n) i ↔
      ∃ j, SeqSpec.MatchesAt (· == ·) s n j ∧ i = (encode enc (s.take j)).length := by
  constructor
  · intro hm
    obtain ⟨a, b, e, rfl⟩ := matchesAt_eq.1 hm
    obtain ⟨s₁, s₂, rfl, rfl, -⟩ := h s n a b hn e
    exact ⟨s₁.length, matchesAt_eq.2 ⟨s₁, s₂, rfl, rfl⟩, by simp⟩
  · rintro ⟨j, hm, rfl⟩
    obtain ⟨a, b, rfl, rfl⟩ := matchesAt_eq.1 hm
    exact matchesAt_eq.2 ⟨encode enc a, encode enc b, by simp [encode_append], by simp⟩

theorem _root_.Pluto.Spec.SelfSync.firstOr [DecidableEq β] {enc : Char → List β} (h : SelfSync enc) {s n : List Char} (hn : n ≠ [])
    {j : Nat} (hj : SeqSpec.FirstOr (SeqSpec.MatchesAt (· == ·) s n) s.length j) :
    SeqSpec.FirstOr (SeqSpec.MatchesAt (· == ·) (encode enc s) (encode enc n)) (encode enc s).length
      (encode enc (s.take j)).length := by
  rcases hj with ⟨h1, h2⟩ | ⟨rfl, h1⟩
  · refine .inl ⟨(h.matchesAt hn).2 ⟨j, h1, rfl⟩, ?_⟩
    intro i hi hm
    obtain ⟨k, hk, rfl⟩ := (h.matchesAt hn).1 hm
    refine h2 k ?_ hk
    apply Nat.lt_of_not_le
    intro hle
    have := encode_take_mono enc s hle
    omega
  · refine .inr ⟨by rw [List.take_length], ?_⟩
    intro i hm
    obtain ⟨k, hk, -⟩ := (h.matchesAt hn).1 hm
    exact h1 k hk

theorem _root_.Pluto.Spec.SelfSync.lastOr [DecidableEq β] {enc : Char → List β} (h : SelfSync enc) {s n : List Char} (hn : n ≠ [])
    {j : Nat} (hj : SeqSpec.LastOr (SeqSpec.MatchesAt (· == ·) s n) s.length j) :
    SeqSpec.LastOr (SeqSpec.MatchesAt (· == ·) (encode enc s) (encode enc n)) (encode enc s).length
      (encode enc (s.take j)).length := by
  rcases hj with ⟨h1, h2⟩ | ⟨rfl, h1⟩
  · refine .inl ⟨(h.matchesAt hn).2 ⟨j, h1, rfl⟩, ?_⟩
    intro i hi hm
    obtain ⟨k, hk, rfl⟩ := (h.matchesAt hn).1 hm
    refine h2 k ?_ hk
    apply Nat.lt_of_not_le
    intro hle
    have := encode_take_mono enc s hle
    omega
  · refine .inr ⟨by rw [List.take_length], ?_⟩
    intro i hm
    obtain ⟨k, hk, -⟩ := (h.matchesAt hn).1 hm
    exact h1 k hk

/-! ## Reversing and slicing -/

theorem reverse_single {enc : Char → List β} {s : List Char} (h : ∀ c ∈ s, (enc c).length = 1) :
    (encode enc s).reverse = encode enc s.reverse := by
  induction s with
  | nil => rfl
  | cons c s ih =>
    obtain ⟨u, hu⟩ := single (h c (by simp))
    rw [encode_cons, List.reverse_append, ih (fun d hd => h d (by simp [hd])), List.reverse_cons, encode_append, encode_cons,
      encode_nil, hu]
    rfl

/-- The last character of more than one unit. -/
theorem last_long {enc : Char → List β} {s : List Char} (h : ∃ c ∈ s, (enc c).length ≠ 1) :
    ∃ s₁ c s₂, s = s₁ ++ c :: s₂ ∧ (enc c).length ≠ 1 ∧ ∀ d ∈ s₂, (enc d).length = 1 := by
  induction s with
  | nil => obtain ⟨c, hc, -⟩ := h; cases hc
  | cons c s ih =>
    by_cases hs : ∃ d ∈ s, (enc d).length ≠ 1
    · obtain ⟨s₁, d, s₂, rfl, h1, h2⟩ := ih hs
      exact ⟨c :: s₁, d, s₂, rfl, h1, h2⟩
    · push Not at hs
      obtain ⟨d, hd, hl⟩ := h
      rcases List.mem_cons.1 hd with rfl | hd
      · exact ⟨[], d, s, rfl, hl, hs⟩
      · exact absurd (hs d hd) hl

theorem reverse_iff {enc : Char → List β} {lead : β → Bool} (h : Leads enc lead) (hpf : PrefixFree enc) (s : List Char) :
    WellFormed enc (encode enc s).reverse ↔ ∀ c ∈ s, (enc c).length = 1 := by
  have hne : ∀ c, enc c ≠ [] := by
    intro c; obtain ⟨l, r, h1, -⟩ := h c; simp [h1]
  constructor
  · rintro ⟨t, e⟩
    by_contra hc
    push Not at hc
    obtain ⟨s₁, c, s₂, rfl, h1, h2⟩ := last_long hc
    rw [encode_append, encode_cons, List.reverse_append, List.reverse_append, reverse_single h2, List.append_assoc] at e
    obtain ⟨t', -, e'⟩ := prefix_text hne hpf _ t _ e.symm
    obtain ⟨l, r, h3, h4, h5⟩ := h c
    have hr : r ≠ [] := by
      rintro rfl
      rw [h3] at h1
      exact h1 rfl
    obtain ⟨r', u, rfl⟩ : ∃ r' u, r = r' ++ [u] := ⟨r.dropLast, r.getLast hr, (List.dropLast_append_getLast hr).symm⟩
    rw [h3] at e'
    cases t' with
    | nil => simp [encode_nil] at e'
    | cons d t' =>
      obtain ⟨v, w, h6, h7, -⟩ := h d
      rw [encode_cons, h6] at e'
      simp only [List.reverse_cons, List.reverse_append, List.reverse_nil, List.nil_append, List.cons_append,
        List.cons.injEq] at e'
      have := h5 u (by simp)
      rw [e'.1, h7] at this
      cases this
  · intro hs
    exact ⟨s.reverse, reverse_single hs⟩

theorem slice_iff {enc : Char → List β} (h : SelfSync enc) (s : List Char) {i j : Nat} (hij : i < j)
    (hj : j ≤ (encode enc s).length) :
    WellFormed enc (((encode enc s).drop i).take (j - i)) ↔ Between enc s i ∧ Between enc s j := by
  have hcut : encode enc s = (encode enc s).take i ++ ((encode enc s).drop i).take (j - i) ++ (encode enc s).drop j := by
    rw [List.append_assoc]
    conv_lhs => rw [← List.take_append_drop i (encode enc s)]
    congr 1
    conv_lhs => rw [← List.take_append_drop (j - i) ((encode enc s).drop i)]
    congr 1
    rw [List.drop_drop]
    congr 1
    omega
  constructor
  · rintro ⟨n, e⟩
    have hn : n ≠ [] := by
      rintro rfl
      have := congrArg List.length e
      simp only [encode_nil, List.length_take, List.length_drop, List.length_nil] at this
      omega
    rw [e] at hcut
    obtain ⟨s₁, s₂, h1, h2, -⟩ := h s n _ _ hn hcut
    have hi : i = (encode enc s₁).length := by
      rw [← h2, List.length_take]
      omega
    have hl := congrArg List.length e
    simp only [List.length_take, List.length_drop] at hl
    refine ⟨⟨s₁.length, ?_⟩, ⟨(s₁ ++ n).length, ?_⟩⟩
    · rw [h1, List.append_assoc, List.take_left, hi]
    · rw [h1, List.take_left, encode_append, List.length_append, ← hi]
      omega
  · rintro ⟨⟨a, ha⟩, ⟨b, hb⟩⟩
    have hab : a < b := by
      by_contra hc
      have := encode_take_mono enc s (Nat.le_of_not_lt hc)
      omega
    refine ⟨(s.drop a).take (b - a), ?_⟩
    have h1 : encode enc s = encode enc (s.take a) ++ (encode enc ((s.drop a).take (b - a)) ++ encode enc (s.drop b)) := by
      rw [← encode_append, ← encode_append]
      congr 1
      conv_lhs => rw [← List.take_append_drop a s]
      congr 1
      conv_lhs => rw [← List.take_append_drop (b - a) (s.drop a)]
      congr 1
      rw [List.drop_drop]
      congr 1
      omega
    have h2 : s.take b = s.take a ++ (s.drop a).take (b - a) := by
      have := List.take_add (l := s) (i := a) (j := b - a)
      rwa [Nat.add_sub_cancel' (Nat.le_of_lt hab)] at this
    have h3 : j - i = (encode enc ((s.drop a).take (b - a))).length := by
      rw [ha, hb, h2, encode_append, List.length_append]
      omega
    rw [h3, ha, h1, List.drop_left, List.take_left]

end Pluto.UtfProofs
