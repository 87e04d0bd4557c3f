import Verif.Spec.NumLocale
import Verif.Proofs.Num
import Verif.Proofs.FloatText

/-! # Lemmas about numbers with grouped digits -/

namespace Pluto.Num

theorem groupRev_filter {sep : Char} (ds : List Char) (hs : sep ∉ ds) (g : Nat) (gs : List Nat) (i : Nat) :
    (groupRev sep g gs i ds).filter (fun c => decide (c ≠ sep)) = ds := by
  induction ds generalizing g gs i with
  | nil => simp [groupRev]
  | cons d ds ih =>
    simp only [List.mem_cons, not_or] at hs
    have hd : d ≠ sep := fun h => hs.1 h.symm
    unfold groupRev
    have key : ∀ g gs i, (d :: groupRev sep g gs i ds).filter (fun c => decide (c ≠ sep)) = d :: ds := by
      intro g gs i
      rw [List.filter_cons_of_pos (by simpa using hd), ih hs.2]
    split
    · cases gs <;> simp only <;> rw [List.filter_cons_of_neg (by simp)] <;> exact key _ _ _
    · exact key _ _ _

theorem groupRev_mem {sep : Char} (ds : List Char) (g : Nat) (gs : List Nat) (i : Nat) :
    ∀ c ∈ groupRev sep g gs i ds, c = sep ∨ c ∈ ds := by
  induction ds generalizing g gs i with
  | nil => simp [groupRev]
  | cons d ds ih =>
    intro c hc
    unfold groupRev at hc
    split at hc
    · cases gs with
      | nil =>
        simp only [List.mem_cons] at hc ⊢
        rcases hc with hc | hc | hc
        · exact Or.inl hc
        · exact Or.inr (Or.inl hc)
        · rcases ih _ _ _ c hc with h | h
          · exact Or.inl h
          · exact Or.inr (Or.inr h)
      | cons g' gs' =>
        simp only [List.mem_cons] at hc ⊢
        rcases hc with hc | hc | hc
        · exact Or.inl hc
        · exact Or.inr (Or.inl hc)
        · rcases ih _ _ _ c hc with h | h
          · exact Or.inl h
          · exact Or.inr (Or.inr h)
    · simp only [List.mem_cons] at hc ⊢
      rcases hc with hc | hc
      · exact Or.inr (Or.inl hc)
      · rcases ih _ _ _ c hc with h | h
        · exact Or.inl h
        · exact Or.inr (Or.inr h)

theorem groupRev_ne_nil {sep d : Char} {ds : List Char} {g : Nat} {gs : List Nat} {i : Nat} :
    groupRev sep g gs i (d :: ds) ≠ [] := by
  unfold groupRev
  split
  · cases gs <;> simp
  · simp

theorem groupRev_last {sep : Char} (ds : List Char) (g : Nat) (gs : List Nat) (i : Nat) :
    (groupRev sep g gs i ds).getLast? = ds.getLast? := by
  induction ds generalizing g gs i with
  | nil => simp [groupRev]
  | cons d ds ih =>
    have key : ∀ g gs i, (d :: groupRev sep g gs i ds).getLast? = (d :: ds).getLast? := by
      intro g gs i
      cases ds with
      | nil => simp [groupRev]
      | cons e es =>
        obtain ⟨x, xs, hx⟩ := List.exists_cons_of_ne_nil (groupRev_ne_nil (sep := sep) (d := e) (ds := es) (g := g) (gs := gs) (i := i))
        have := ih g gs i
        rw [hx] at this ⊢
        rw [List.getLast?_cons_cons, this, List.getLast?_cons_cons]
    unfold groupRev
    split
    · cases gs <;> simp only [List.getLast?_cons_cons] <;> exact key _ _ _
    · exact key _ _ _

/-- Where the separators are when all groups have the same size. -/
theorem groupRev_sep {sep : Char} (ds : List Char) (hs : sep ∉ ds) {g : Nat} (hg : 0 < g) {i : Nat} (hi : i ≤ g) (j : Nat)
    (hj : j < (groupRev sep g [] i ds).length) :
    (groupRev sep g [] i ds)[j]? = some sep ↔ (j + i) % (g + 1) = g := by
  induction ds generalizing i j with
  | nil => simp [groupRev] at hj
  | cons d ds ih =>
    simp only [List.mem_cons, not_or] at hs
    have hd : d ≠ sep := fun h => hs.1 h.symm
    by_cases hig : i = g
    · subst hig
      have e : groupRev sep i [] i (d :: ds) = sep :: d :: groupRev sep i [] 1 ds := by
        rw [groupRev]; simp; omega
      rw [e] at hj ⊢
      rcases j with _ | _ | j
      · simp [Nat.mod_eq_of_lt (by omega : i < i + 1)]
      · have : (0 + 1 + i) % (i + 1) = 0 := by rw [show 0 + 1 + i = i + 1 by omega]; exact Nat.mod_self _
        rw [this]
        simp [hd]; omega
      · have h1 : (j + 1 + 1 + i) % (i + 1) = (j + 1) % (i + 1) := by
          rw [show j + 1 + 1 + i = (j + 1) + (i + 1) by omega, Nat.add_mod_right]
        rw [h1]
        simp only [List.getElem?_cons_succ]
        exact ih hs.2 (by omega) j (by simpa using hj)
    · have e : groupRev sep g [] i (d :: ds) = d :: groupRev sep g [] (i + 1) ds := by
        rw [groupRev]; simp [hig]
      rw [e] at hj ⊢
      rcases j with _ | j
      · rw [Nat.zero_add, Nat.mod_eq_of_lt (by omega)]
        simp [hd, hig]
      · simp only [List.getElem?_cons_succ]
        rw [ih hs.2 (by omega) j (by simpa using hj), show j + (i + 1) = j + 1 + i by omega]

theorem groupRev_short {sep : Char} (ds : List Char) {g : Nat} (gs : List Nat) (i : Nat)
    (h : g = 0 ∨ i + ds.length ≤ g) : groupRev sep g gs i ds = ds := by
  induction ds generalizing i with
  | nil => simp [groupRev]
  | cons d ds ih =>
    simp only [List.length_cons] at h
    unfold groupRev
    rw [if_neg (by omega), ih (i + 1) (by omega)]

theorem group_filter (p : Punct) {ds : List Char} (hs : p.sep ∉ ds) :
    (p.group ds).filter (fun c => decide (c ≠ p.sep)) = ds := by
  unfold Punct.group
  split
  · rw [List.filter_eq_self]
    intro c hc
    simp only [ne_eq, decide_eq_true_eq]
    rintro rfl; exact hs hc
  · rw [List.filter_reverse, groupRev_filter _ (by simpa using hs), List.reverse_reverse]

theorem group_mem (p : Punct) (ds : List Char) : ∀ c ∈ p.group ds, c = p.sep ∨ c ∈ ds := by
  intro c hc
  unfold Punct.group at hc
  split at hc
  · exact Or.inr hc
  · have := groupRev_mem _ _ _ _ c (List.mem_reverse.1 hc)
    simpa using this

theorem group_head (p : Punct) (ds : List Char) : (p.group ds).head? = ds.head? := by
  unfold Punct.group
  split
  · rfl
  · rw [List.head?_reverse, groupRev_last, List.getLast?_reverse]

theorem group_short (p : Punct) {ds : List Char} (h : ∀ g, p.grouping.head? = some g → g = 0 ∨ ds.length ≤ g) :
    p.group ds = ds := by
  unfold Punct.group
  split
  · rfl
  · rename_i g gs heq
    rw [groupRev_short _ _ _ (by
      have := h g (by rw [heq]; rfl)
      simpa using this), List.reverse_reverse]

theorem readDigitsIn_eq (p : Punct) (s : List Char) (any : Bool) (acc : Nat)
    (hs : ∀ c ∈ s, c = p.sep ∨ c.isDigit = true) (hg : p.grouping ≠ [] ∨ p.sep ∉ s) :
    readDigitsIn p s any acc = readDigits (s.filter (fun c => decide (c ≠ p.sep))) any acc := by
  induction s generalizing any acc with
  | nil => rfl
  | cons c s ih =>
    have ih' := fun any acc => ih any acc (fun c h => hs c (by simp [h])) (by
      rcases hg with hg | hg
      · exact Or.inl hg
      · exact Or.inr fun h => hg (by simp [h]))
    by_cases hc : c = p.sep
    · have hgr : p.grouping ≠ [] := by
        rcases hg with hg | hg
        · exact hg
        · exact absurd (by simp [hc]) hg
      rw [readDigitsIn, if_pos ⟨hc, hgr⟩, List.filter_cons_of_neg (by simp [hc])]
      exact ih' any acc
    · have hd : c.isDigit = true := (hs c (by simp)).resolve_left hc
      rw [readDigitsIn, if_neg (fun h => hc h.1), if_pos hd, List.filter_cons_of_pos (by simp [hc]), readDigits, if_pos hd]
      exact ih' _ _

/-- Reading a sign and a text of digits and separators that begins with a digit is reading it without separators. -/
theorem strToIn_eq (p : Punct) (hp : p.Sane) (t : IntType) (neg : Bool) {s : List Char}
    (hs : ∀ c ∈ s, c = p.sep ∨ c.isDigit = true) (hg : p.grouping ≠ [] ∨ p.sep ∉ s)
    (hh : ∃ c, s.head? = some c ∧ c.isDigit = true) :
    strToIn p t ((if neg then ['-'] else []) ++ s) =
      strTo t ((if neg then ['-'] else []) ++ s.filter (fun c => decide (c ≠ p.sep))) := by
  have hr := readDigitsIn_eq p s false 0 hs hg
  unfold strToIn strTo
  cases neg
  · simp only [Bool.false_eq_true, if_false, List.nil_append]
    obtain ⟨c, h1, h2⟩ := hh
    obtain ⟨r, rfl⟩ : ∃ r, s = c :: r := by
      cases s with
      | nil => cases h1
      | cons x r => cases h1; exact ⟨r, rfl⟩
    have hcs : c ≠ p.sep := by rintro rfl; rw [hp.digit] at h2; cases h2
    have hdw : (c :: r).dropWhile isSpace = c :: r := by
      rw [List.dropWhile_cons, if_neg (by simp [isSpace_not_digit h2])]
    have hf : (c :: r).filter (fun c => decide (c ≠ p.sep)) = c :: r.filter (fun c => decide (c ≠ p.sep)) := by
      rw [List.filter_cons_of_pos (by simp [hcs])]
    have h3 : extractIn p t (c :: r) = some (convert t false (readDigitsIn p (c :: r) false 0).1
        (readDigitsIn p (c :: r) false 0).2) := by
      unfold extractIn
      rw [hdw]
      split
      · simp_all
      · rename_i heq; cases heq; exact absurd h2 (by decide)
      · rename_i heq; cases heq; exact absurd h2 (by decide)
      · rename_i heq; cases heq; rfl
    rw [h3, hr, hf]
    rw [extract_digit (c := c) (r := r.filter (fun c => decide (c ≠ p.sep)))
      (by rw [List.dropWhile_cons, if_neg (by simp [isSpace_not_digit h2])]) h2]
  · simp only [if_true, List.singleton_append]
    unfold extractIn extract
    rw [List.dropWhile_cons, if_neg (by decide), List.dropWhile_cons, if_neg (by decide)]
    simp only [hr]

theorem sep_notMem {p : Punct} (hp : p.Sane) (n : Nat) : p.sep ∉ Nat.toDigits 10 n := by
  intro h
  have := Nat.isDigit_of_mem_toDigits (by norm_num) (by norm_num) h
  rw [hp.digit] at this; cases this

theorem strIn_eq (p : Punct) (v : Int) :
    strIn p v = (if decide (v < 0) then ['-'] else []) ++ p.group (Nat.toDigits 10 v.natAbs) := by
  unfold strIn
  by_cases h : v < 0 <;> simp [h]

theorem str_eq (v : Int) : str v = (if decide (v < 0) then ['-'] else []) ++ Nat.toDigits 10 v.natAbs := by
  unfold str
  by_cases h : v < 0 <;> simp [h]

theorem toDigits_head (n : Nat) : ∃ c, (Nat.toDigits 10 n).head? = some c ∧ c.isDigit = true := by
  obtain ⟨c, r, h⟩ := List.exists_cons_of_ne_nil (Nat.toDigits_ne_nil (n := n) (b := 10))
  exact ⟨c, by rw [h]; rfl, Nat.isDigit_of_mem_toDigits (b := 10) (n := n) (by norm_num) (by norm_num) (by simp [h])⟩

theorem groupRev_long {sep : Char} (ds : List Char) {g : Nat} (gs : List Nat) (i : Nat) (hg : g ≠ 0) (hi : i ≤ g)
    (h : g < i + ds.length) : ds.length < (groupRev sep g gs i ds).length := by
  have hle : ∀ (ds : List Char) g gs i, ds.length ≤ (groupRev sep g gs i ds).length := by
    intro ds
    induction ds with
    | nil => simp
    | cons d ds ih =>
      intro g gs i
      unfold groupRev
      split
      · cases gs with
        | nil => have := ih g [] 1; simp only [List.length_cons]; omega
        | cons g' gs' => have := ih g' gs' 1; simp only [List.length_cons]; omega
      · have := ih g gs (i + 1); simp only [List.length_cons]; omega
  induction ds generalizing i with
  | nil => simp at h; omega
  | cons d ds ih =>
    simp only [List.length_cons] at h
    unfold groupRev
    by_cases hc : g ≠ 0 ∧ i = g
    · rw [if_pos hc]
      cases gs with
      | nil => have := hle ds g [] 1; simp only [List.length_cons]; omega
      | cons g' gs' => have := hle ds g' gs' 1; simp only [List.length_cons]; omega
    · rw [if_neg hc]
      have := ih (i + 1) (by omega) (by omega)
      simp only [List.length_cons]; omega

theorem toDigits_length_le (n : Nat) {g : Nat} (hg : g ≠ 0) : (Nat.toDigits 10 n).length ≤ g ↔ n < 10 ^ g :=
  Nat.length_toDigits_le_iff (by norm_num) (by omega)

theorem strIn_same (p : Punct) (v : Int) : strIn p v = str v ↔ p.Short v.natAbs := by
  rw [strIn_eq, str_eq, List.append_cancel_left_eq]
  constructor
  · intro h g hg
    by_contra hn
    push Not at hn
    unfold Punct.group at h
    split at h
    · rename_i heq; rw [heq] at hg; cases hg
    · rename_i g' gs heq
      rw [heq] at hg
      cases hg
      have hl : g < (Nat.toDigits 10 v.natAbs).length := by
        by_contra hc
        have := (toDigits_length_le v.natAbs hn.1).1 (by omega)
        omega
      have := groupRev_long (sep := p.sep) (Nat.toDigits 10 v.natAbs).reverse gs 0 hn.1 (by omega) (by simpa using hl)
      have h2 := congrArg List.length h
      simp only [List.length_reverse] at h2 this
      omega
  · intro h
    apply group_short
    intro g hg
    rcases h g hg with h0 | h1
    · exact Or.inl h0
    · by_cases hz : g = 0
      · exact Or.inl hz
      · exact Or.inr ((toDigits_length_le _ hz).2 h1)

end Pluto.Num

namespace Pluto.FloatText
open Pluto.Num

/-- The text of a number: digits, and then nothing, a decimal point or an exponent. -/
def Shape (s : List Char) : Prop :=
  ∃ a r, s = a ++ r ∧ a ≠ [] ∧ (∀ c ∈ a, c.isDigit = true) ∧ (r = [] ∨ (∃ f, r = '.' :: f) ∨ ∃ f, r = 'e' :: f)

theorem shape_zero : Shape ['0'] := ⟨['0'], [], rfl, by simp, by decide, Or.inl rfl⟩

theorem point_shape (s t : List Char) (ht : t = [] ∨ ∃ f, t = 'e' :: f) :
    point s ++ t = [] ∨ (∃ f, point s ++ t = '.' :: f) ∨ ∃ f, point s ++ t = 'e' :: f := by
  unfold point
  split
  · rcases ht with rfl | ⟨f, rfl⟩
    · exact Or.inl rfl
    · exact Or.inr (Or.inr ⟨f, rfl⟩)
  · exact Or.inr (Or.inl ⟨s ++ t, rfl⟩)

theorem shape_general (d : ℕ) (e : ℤ) : Shape (general d e) := by
  have hdig : ∀ c ∈ Nat.toDigits 10 d, c.isDigit = true := fun c hc =>
    Nat.isDigit_of_mem_toDigits (by norm_num) (by norm_num) hc
  have hne : Nat.toDigits 10 d ≠ [] := Nat.toDigits_ne_nil
  have htake : ∀ n, 0 < n → (Nat.toDigits 10 d).take n ≠ [] := by
    intro n hn h
    rcases List.take_eq_nil_iff.1 h with h | h
    · omega
    · exact hne h
  unfold general
  simp only
  split
  · refine ⟨(Nat.toDigits 10 d).take 1, _, List.append_assoc _ _ _, htake 1 (by omega),
      fun c hc => hdig c (List.mem_of_mem_take hc), ?_⟩
    exact point_shape _ _ (Or.inr ⟨_, rfl⟩)
  · split
    · refine ⟨['0'], point _, rfl, by simp, by decide, ?_⟩
      have := point_shape (stripZeros (List.replicate (-e - 1).toNat '0' ++ Nat.toDigits 10 d)) [] (Or.inl rfl)
      rwa [List.append_nil] at this
    · refine ⟨(Nat.toDigits 10 d).take (e + 1).toNat, _, rfl, htake _ (by omega),
        fun c hc => hdig c (List.mem_of_mem_take hc), ?_⟩
      have := point_shape (stripZeros ((Nat.toDigits 10 d).drop (e + 1).toNat)) [] (Or.inl rfl)
      rwa [List.append_nil] at this

theorem collect_group (p : Punct) (hp : p.SanePoint) (s r : List Char) (hs : ∀ c ∈ s, c = p.sep ∨ c.isDigit = true)
    (hg : p.grouping ≠ [] ∨ p.sep ∉ s) :
    collect p (s ++ r) = s.filter (fun c => decide (c ≠ p.sep)) ++ collect p r := by
  induction s with
  | nil => rfl
  | cons c s ih =>
    have ih' := ih (fun c h => hs c (by simp [h])) (by
      rcases hg with hg | hg
      · exact Or.inl hg
      · exact Or.inr fun h => hg (by simp [h]))
    by_cases hc : c = p.sep
    · have hgr : p.grouping ≠ [] := by
        rcases hg with hg | hg
        · exact hg
        · exact absurd (by simp [hc]) hg
      rw [List.cons_append, collect, if_neg (by rw [hc]; exact hp.other), if_pos ⟨hc, hgr⟩,
        List.filter_cons_of_neg (by simp [hc]), ih']
    · have hd : c.isDigit = true := (hs c (by simp)).resolve_left hc
      have hpt : c ≠ p.point := by rintro rfl; rw [hp.point] at hd; cases hd
      rw [List.cons_append, collect, if_neg hpt, if_neg (fun h => hc h.1), if_pos hd,
        List.filter_cons_of_pos (by simp [hc]), ih', List.cons_append]

/-- Collecting the text of a number in its locale gives its text in the "C" locale; it begins with a digit. -/
theorem collect_localise (p : Punct) (hp : p.SanePoint) {s : List Char} (hs : Shape s) :
    collect p (localise p s) = s ∧ ∃ c r, localise p s = c :: r ∧ c.isDigit = true := by
  obtain ⟨a, r, rfl, hne, hd, hr⟩ := hs
  have hrd : ∀ c, r.head? = some c → c.isDigit = false := by
    intro c hc
    rcases hr with rfl | ⟨f, rfl⟩ | ⟨f, rfl⟩
    · cases hc
    · cases hc; decide
    · cases hc; decide
  have htw : (a ++ r).takeWhile Char.isDigit = a ∧ (a ++ r).dropWhile Char.isDigit = r := by
    rw [List.takeWhile_append_of_pos hd, List.dropWhile_append_of_pos hd]
    cases r with
    | nil => simp
    | cons c r => simp [hrd c rfl]
  have hsep : p.sep ∉ a := by
    intro h
    have := hd _ h
    rw [hp.digit] at this; cases this
  have hmem : ∀ c ∈ p.group a, c = p.sep ∨ c.isDigit = true := by
    intro c hc
    rcases group_mem p a c hc with h | h
    · exact Or.inl h
    · exact Or.inr (hd c h)
  have hgr : p.grouping ≠ [] ∨ p.sep ∉ p.group a := by
    by_cases hg : p.grouping = []
    · right
      have : p.group a = a := by unfold Punct.group; rw [hg]
      rw [this]; exact hsep
    · exact Or.inl hg
  constructor
  · unfold localise
    rw [htw.1, htw.2, collect_group p hp _ _ hmem hgr, group_filter p hsep]
    congr 1
    rcases hr with rfl | ⟨f, rfl⟩ | ⟨f, rfl⟩
    · rfl
    · simp [collect]
    · have h1 : ('e' : Char) ≠ p.point := hp.exponent.2.symm
      have h2 : ('e' : Char) ≠ p.sep := hp.exponent.1.symm
      simp [collect, h1, h2]
  · unfold localise
    rw [htw.1, htw.2]
    obtain ⟨c, a', rfl⟩ := List.exists_cons_of_ne_nil hne
    have hh := group_head p (c :: a')
    obtain ⟨x, g, hx⟩ : ∃ x g, p.group (c :: a') = x :: g := by
      cases hg : p.group (c :: a') with
      | nil => rw [hg] at hh; cases hh
      | cons x g => exact ⟨x, g, rfl⟩
    rw [hx] at hh ⊢
    cases hh
    exact ⟨c, _, rfl, hd c (by simp)⟩

theorem readNumberIn_localise (p : Punct) (hp : p.SanePoint) (neg : Bool) {s : List Char} (hs : Shape s) :
    readNumberIn p ((if neg then ['-'] else []) ++ localise p s) = readNumber ((if neg then ['-'] else []) ++ s) := by
  obtain ⟨h1, c, r, h2, h3⟩ := collect_localise p hp hs
  obtain ⟨c', r', hs', hc'⟩ : ∃ c' r', s = c' :: r' ∧ c'.isDigit = true := by
    obtain ⟨a, r, rfl, hne, hd, _⟩ := hs
    obtain ⟨x, a', rfl⟩ := List.exists_cons_of_ne_nil hne
    exact ⟨x, a' ++ r, rfl, hd x (by simp)⟩
  unfold readNumberIn readNumber
  cases neg
  · simp only [Bool.false_eq_true, if_false, List.nil_append]
    rw [h2, hs']
    rw [List.dropWhile_cons, if_neg (by simp [isSpace_not_digit h3]), List.dropWhile_cons,
      if_neg (by simp [isSpace_not_digit hc'])]
    rw [hs'] at h1 h2
    rw [h2] at h1
    simp only [readSign_digit _ _ h3, readSign_digit _ _ hc', h1]
  · simp only [if_true, List.singleton_append]
    rw [List.dropWhile_cons, if_neg (by decide), List.dropWhile_cons, if_neg (by decide)]
    simp only [readSign, h1]

theorem readNumberIn_strFloatIn (p : Punct) (hp : p.SanePoint) (x : ℚ) :
    readNumberIn p (strFloatIn p x) = readNumber (strFloat x) := by
  unfold strFloatIn strFloat
  split
  · exact readNumberIn_localise p hp false shape_zero
  · split
    · exact readNumberIn_localise p hp true (shape_general _ _)
    · exact readNumberIn_localise p hp false (shape_general _ _)

theorem localise_plain (p : Punct) (hp : p.grouping = []) (hpt : p.point = '.') (s : List Char) : localise p s = s := by
  unfold localise Punct.group
  rw [hp, hpt]
  simp only
  conv_rhs => rw [← List.takeWhile_append_dropWhile (p := Char.isDigit) (l := s)]
  congr 1
  split <;> simp_all

end Pluto.FloatText
