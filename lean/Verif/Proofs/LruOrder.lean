import Verif.Model.LruOrder
import Verif.Spec.LruOrder
import Mathlib.Data.List.Basic

/-!
# The ordered map of the cache and the recency list
-/

namespace Pluto.LruOrder

open Pluto.Lru (State)
open Pluto.Spec.Lru

variable {K V Q : Type} {less : K → K → Bool}

/-- Elements of `std::map` in the order of their keys. -/
abbrev Elem (K V : Type) := K × (V × Nat)

/-- Elements of the recency list: identity of the node, key, value. -/
abbrev Entry (K V : Type) := Nat × K × V

def Sorted (less : K → K → Bool) (m : List (Elem K V)) : Prop := m.Pairwise (fun a b => less a.1 b.1 = true)

def elem (t : Entry K V) : Elem K V := (t.2.1, (t.2.2, t.1))

theorem less_of_lt_of_eqv (hw : StrictWeak less) {a b c : K} (h : less a b = true) (h1 : less b c = false)
    (h2 : less c b = false) : less a c = true := by
  cases hac : less a c with
  | true => rfl
  | false =>
    cases hca : less c a with
    | true => rw [hw.trans c a b hca h] at h2; cases h2
    | false =>
      have := hw.incomparable a c b hac hca h2 h1
      rw [this.1] at h; cases h

theorem less_of_eqv_of_lt (hw : StrictWeak less) {a b c : K} (h : less b a = true) (h1 : less b c = false)
    (h2 : less c b = false) : less c a = true := by
  cases hca : less c a with
  | true => rfl
  | false =>
    cases hac : less a c with
    | true => rw [hw.trans b a c h hac] at h1; cases h1
    | false =>
      have := hw.incomparable b c a h1 h2 hca hac
      rw [this.1] at h; cases h

theorem takeWhile_append {α : Type} {p : α → Bool} (L R : List α) (h1 : ∀ x ∈ L, p x = true) (h2 : ∀ x ∈ R, p x = false) :
    (L ++ R).takeWhile p = L := by
  induction L with
  | nil =>
    cases R with
    | nil => rfl
    | cons r R => simp [h2 r (by simp)]
  | cons l L ih =>
    simp only [List.cons_append, List.takeWhile_cons, h1 l (by simp), if_true]
    rw [ih fun x hx => h1 x (by simp [hx])]

/-- A sorted list around a key. -/
theorem around (hw : StrictWeak less) {m : List (Elem K V)} (hs : Sorted less m) (k : K) :
    (∃ L e R, m = L ++ e :: R ∧ (∀ x ∈ L, less x.1 k = true) ∧ (less e.1 k = false ∧ less k e.1 = false) ∧
      ∀ x ∈ R, less k x.1 = true) ∨
    ∃ L R, m = L ++ R ∧ (∀ x ∈ L, less x.1 k = true) ∧ ∀ x ∈ R, less k x.1 = true := by
  induction m with
  | nil => right; exact ⟨[], [], rfl, by simp, by simp⟩
  | cons a m ih =>
    have hs' : Sorted less m := List.Pairwise.of_cons hs
    have ha : ∀ x ∈ m, less a.1 x.1 = true := (List.pairwise_cons.1 hs).1
    cases h1 : less a.1 k with
    | true =>
      rcases ih hs' with ⟨L, e, R, rfl, hL, he, hR⟩ | ⟨L, R, rfl, hL, hR⟩
      · left
        refine ⟨a :: L, e, R, rfl, ?_, he, hR⟩
        intro x hx
        rcases List.mem_cons.1 hx with rfl | hx
        · exact h1
        · exact hL x hx
      · right
        refine ⟨a :: L, R, rfl, ?_, hR⟩
        intro x hx
        rcases List.mem_cons.1 hx with rfl | hx
        · exact h1
        · exact hL x hx
    | false =>
      cases h2 : less k a.1 with
      | true =>
        right
        refine ⟨[], a :: m, rfl, by simp, ?_⟩
        intro x hx
        rcases List.mem_cons.1 hx with rfl | hx
        · exact h2
        · exact hw.trans _ _ _ h2 (ha x hx)
      | false =>
        left
        exact ⟨[], a, m, rfl, by simp, ⟨h1, h2⟩, fun x hx => less_of_eqv_of_lt hw (ha x hx) h1 h2⟩

theorem asymm (hw : StrictWeak less) {a b : K} (h : less a b = true) : less b a = false := by
  cases hba : less b a with
  | false => rfl
  | true => have := hw.trans a b a h hba; rw [hw.irrefl] at this; cases this

theorem lowerBound_found (hw : StrictWeak less) {L R : List (Elem K V)} {e : Elem K V} {k : K}
    (hL : ∀ x ∈ L, less x.1 k = true) (he : less e.1 k = false) (hR : ∀ x ∈ R, less k x.1 = true) :
    lowerBound less (L ++ e :: R) k = L.length := by
  unfold lowerBound
  rw [takeWhile_append L (e :: R) hL]
  intro x hx
  rcases List.mem_cons.1 hx with rfl | hx
  · exact he
  · exact asymm hw (hR x hx)

theorem lowerBound_none (hw : StrictWeak less) {L R : List (Elem K V)} {k : K}
    (hL : ∀ x ∈ L, less x.1 k = true) (hR : ∀ x ∈ R, less k x.1 = true) :
    lowerBound less (L ++ R) k = L.length := by
  unfold lowerBound
  rw [takeWhile_append L R hL fun x hx => asymm hw (hR x hx)]

theorem mapFind_found (hw : StrictWeak less) {L R : List (Elem K V)} {e : Elem K V} {k : K}
    (hL : ∀ x ∈ L, less x.1 k = true) (he : less e.1 k = false ∧ less k e.1 = false)
    (hR : ∀ x ∈ R, less k x.1 = true) : mapFind less (L ++ e :: R) k = some L.length := by
  unfold mapFind
  rw [lowerBound_found hw hL he.1 hR]
  simp [he.2]

theorem mapFind_none (hw : StrictWeak less) {L R : List (Elem K V)} {k : K}
    (hL : ∀ x ∈ L, less x.1 k = true) (hR : ∀ x ∈ R, less k x.1 = true) : mapFind less (L ++ R) k = none := by
  unfold mapFind
  rw [lowerBound_none hw hL hR]
  cases R with
  | nil => simp
  | cons r R => simp [hR r (by simp)]

theorem mapErase_found (hw : StrictWeak less) {L R : List (Elem K V)} {e : Elem K V} {k : K}
    (hL : ∀ x ∈ L, less x.1 k = true) (he : less e.1 k = false ∧ less k e.1 = false)
    (hR : ∀ x ∈ R, less k x.1 = true) : mapErase less (L ++ e :: R) k = L ++ R := by
  unfold mapErase
  rw [lowerBound_found hw hL he.1 hR]
  simp only [List.take_left', List.drop_left', List.dropWhile_cons, he.2, Bool.not_false, if_true]
  cases R with
  | nil => simp
  | cons r R => simp [hR r (by simp)]

theorem mapEmplace_none (hw : StrictWeak less) {L R : List (Elem K V)} {k : K} (x : V × Nat)
    (hL : ∀ x ∈ L, less x.1 k = true) (hR : ∀ x ∈ R, less k x.1 = true) :
    mapEmplace less (L ++ R) k x = L ++ (k, x) :: R := by
  unfold mapEmplace
  rw [mapFind_none hw hL hR, lowerBound_none hw hL hR]
  simp

theorem modify_at {α : Type} (L R : List α) (e : α) (f : α → α) :
    (L ++ e :: R).modify L.length f = L ++ f e :: R := by
  induction L with
  | nil => rfl
  | cons l L ih => simp only [List.cons_append, List.length_cons, List.modify_succ_cons, ih]

/-- The state `s` represents the recency list `T`. -/
structure Rel (less : K → K → Bool) (s : State K V) (T : List (Entry K V)) : Prop where
  list : s.list = T.map (fun t => (t.1, t.2.1))
  map : s.map.Perm (T.map elem)
  ids : (T.map (·.1)).Nodup
  sorted : Sorted less s.map
  fresh : ∀ t ∈ T, t.1 < s.next

theorem Rel.length {s : State K V} {T : List (Entry K V)} (h : Rel less s T) : s.map.length = T.length := by
  rw [h.map.length_eq, List.length_map]

/-- The entry of the recency list that belongs to an element of the map. -/
theorem Rel.split {s : State K V} {T : List (Entry K V)} (h : Rel less s T) {L R : List (Elem K V)} {e : Elem K V}
    (hm : s.map = L ++ e :: R) :
    ∃ A B, T = A ++ (e.2.2, e.1, e.2.1) :: B ∧ (L ++ R).Perm ((A ++ B).map elem) := by
  have he : e ∈ T.map elem := h.map.mem_iff.1 (by rw [hm]; simp)
  obtain ⟨t, ht, rfl⟩ := List.mem_map.1 he
  obtain ⟨A, B, rfl⟩ := List.append_of_mem ht
  refine ⟨A, B, rfl, ?_⟩
  have hp := h.map
  rw [hm, List.map_append, List.map_cons] at hp
  have := (List.perm_middle.symm.trans hp).trans List.perm_middle
  rw [List.map_append]
  exact this.cons_inv

theorem ids_middle {A B : List (Entry K V)} {t : Entry K V} (h : ((A ++ t :: B).map (·.1)).Nodup) :
    ((A ++ B).map (·.1)).Nodup ∧ ∀ x ∈ A ++ B, x.1 ≠ t.1 := by
  have hp : ((A ++ t :: B).map (·.1)).Perm (t.1 :: (A ++ B).map (·.1)) := by
    have : (A ++ t :: B).Perm (t :: (A ++ B)) := List.perm_middle
    exact this.map _
  have := (hp.nodup_iff).1 h
  rw [List.nodup_cons] at this
  refine ⟨this.2, fun x hx hxt => this.1 ?_⟩
  rw [← hxt]
  exact List.mem_map_of_mem hx

theorem listErase_eq {s : State K V} {A B : List (Entry K V)} {t : Entry K V}
    (hl : s.list = (A ++ t :: B).map (fun t => (t.1, t.2.1))) (hi : ((A ++ t :: B).map (·.1)).Nodup) :
    listErase s t.1 = some { s with list := (A ++ B).map (fun t => (t.1, t.2.1)) } := by
  unfold listErase
  rw [hl, if_pos]
  · have hAB := (ids_middle hi).2
    congr 2
    simp only [List.map_append, List.map_cons, List.filter_append, List.filter_cons, ne_eq, not_true_eq_false, decide_false,
      Bool.false_eq_true, if_false]
    congr 1
    · rw [List.filter_eq_self.2]
      intro x hx
      obtain ⟨y, hy, rfl⟩ := List.mem_map.1 hx
      simpa using hAB y (by simp [hy])
    · rw [List.filter_eq_self.2]
      intro x hx
      obtain ⟨y, hy, rfl⟩ := List.mem_map.1 hx
      simpa using hAB y (by simp [hy])
  · simp

theorem sorted_middle {L R : List (Elem K V)} {e : Elem K V} (h : Sorted less (L ++ e :: R)) : Sorted less (L ++ R) := by
  unfold Sorted at *
  exact h.sublist (List.Sublist.append_left (List.sublist_cons_self e R) L)

theorem Rel.drop {s : State K V} {A B : List (Entry K V)} {t : Entry K V} {L R : List (Elem K V)}
    (h : Rel less s (A ++ t :: B)) (hp : (L ++ R).Perm ((A ++ B).map elem)) (hs : Sorted less (L ++ R)) :
    Rel less { s with list := (A ++ B).map (fun t => (t.1, t.2.1)), map := L ++ R } (A ++ B) :=
  { list := rfl
    map := hp
    ids := (ids_middle h.ids).1
    sorted := hs
    fresh := fun x hx => h.fresh x (by
      rcases List.mem_append.1 hx with hx | hx <;> simp [hx]) }

/-- Pairs of the recency list with the classes of the keys. -/
def items (cls : K → Q) (T : List (Entry K V)) : List (Q × V) := T.map (fun t => (cls t.2.1, t.2.2))

/-- What the state represents. -/
def view (cls : K → Q) (s : State K V) (T : List (Entry K V)) : Cache Q V :=
  { capacity := s.capacity, items := items cls T }

section Lookup
variable [DecidableEq Q] {cls : K → Q}

theorem lookup_absent {c : Nat} {T : List (Entry K V)} {q : Q} (h : ∀ t ∈ T, cls t.2.1 ≠ q) :
    ({ capacity := c, items := items cls T } : Cache Q V).lookup q = none := by
  unfold Cache.lookup items
  rw [List.find?_eq_none.2]
  · rfl
  · intro x hx
    obtain ⟨t, ht, rfl⟩ := List.mem_map.1 hx
    simpa using h t ht

theorem lookup_present {c : Nat} {A B : List (Entry K V)} {i : Nat} {k : K} {v : V} {q : Q}
    (hA : ∀ x ∈ A ++ B, cls x.2.1 ≠ q) (ht : cls k = q) :
    ({ capacity := c, items := items cls (A ++ (i, k, v) :: B) } : Cache Q V).lookup q = some v ∧
      ({ capacity := c, items := items cls (A ++ (i, k, v) :: B) } : Cache Q V).without q = items cls (A ++ B) := by
  constructor
  · unfold Cache.lookup items
    rw [List.map_append, List.find?_append, List.find?_eq_none.2]
    · simp [ht]
    · intro x hx
      obtain ⟨y, hy, rfl⟩ := List.mem_map.1 hx
      simpa using hA y (by simp [hy])
  · unfold Cache.without items
    simp only [List.map_append, List.map_cons, List.filter_append, List.filter_cons, ht, ne_eq, not_true_eq_false,
      decide_false, Bool.false_eq_true, if_false]
    congr 1
    · rw [List.filter_eq_self.2]
      intro x hx
      obtain ⟨y, hy, rfl⟩ := List.mem_map.1 hx
      simpa using hA y (by simp [hy])
    · rw [List.filter_eq_self.2]
      intro x hx
      obtain ⟨y, hy, rfl⟩ := List.mem_map.1 hx
      simpa using hA y (by simp [hy])

end Lookup

/-- What a search finds, in the map and in the recency list. -/
theorem Rel.search (hw : StrictWeak less) {cls : K → Q} (hc : Classes less cls) {s : State K V} {T : List (Entry K V)}
    (h : Rel less s T) (k : K) :
    (∃ L e R A B, s.map = L ++ e :: R ∧ mapFind less s.map k = some L.length ∧ cls e.1 = cls k ∧
      T = A ++ (e.2.2, e.1, e.2.1) :: B ∧ (L ++ R).Perm ((A ++ B).map elem) ∧ (∀ x ∈ A ++ B, cls x.2.1 ≠ cls k) ∧
      mapErase less s.map k = L ++ R) ∨
    mapFind less s.map k = none ∧ (∃ L R, s.map = L ++ R ∧ (∀ x ∈ L, less x.1 k = true) ∧ ∀ x ∈ R, less k x.1 = true) ∧
      ∀ t ∈ T, cls t.2.1 ≠ cls k := by
  rcases around hw h.sorted k with ⟨L, e, R, hm, hL, he, hR⟩ | ⟨L, R, hm, hL, hR⟩
  · left
    obtain ⟨A, B, hT, hp⟩ := h.split hm
    refine ⟨L, e, R, A, B, hm, ?_, (hc _ _).2 he, hT, hp, ?_, ?_⟩
    · rw [hm]; exact mapFind_found hw hL he hR
    · intro x hx hxk
      have hx' : elem x ∈ L ++ R := hp.mem_iff.2 (List.mem_map_of_mem hx)
      have := (hc _ _).1 hxk
      rcases List.mem_append.1 hx' with hx' | hx'
      · have h3 := hL _ hx'; rw [show (elem x).1 = x.2.1 from rfl, this.1] at h3; cases h3
      · have h3 := hR _ hx'; rw [show (elem x).1 = x.2.1 from rfl, this.2] at h3; cases h3
    · rw [hm]; exact mapErase_found hw hL he hR
  · right
    refine ⟨by rw [hm]; exact mapFind_none hw hL hR, ⟨L, R, hm, hL, hR⟩, ?_⟩
    intro x hx hxk
    have hx' : elem x ∈ L ++ R := by rw [← hm]; exact h.map.mem_iff.2 (List.mem_map_of_mem hx)
    have := (hc _ _).1 hxk
    rcases List.mem_append.1 hx' with hx' | hx'
    · have h3 := hL _ hx'; rw [show (elem x).1 = x.2.1 from rfl, this.1] at h3; cases h3
    · have h3 := hR _ hx'; rw [show (elem x).1 = x.2.1 from rfl, this.2] at h3; cases h3

/-- `evict_lru` removes the last entry. -/
theorem evict (hw : StrictWeak less) {cls : K → Q} (hc : Classes less cls) {s : State K V} {A : List (Entry K V)}
    {t : Entry K V} (h : Rel less s (A ++ [t])) :
    ∃ s', evictLru less s = some s' ∧ Rel less s' A ∧ s'.capacity = s.capacity := by
  have hlast : s.list.getLast? = some (t.1, t.2.1) := by rw [h.list]; simp
  have ht : elem t ∈ s.map := h.map.mem_iff.2 (List.mem_map_of_mem (by simp))
  rcases h.search hw hc t.2.1 with ⟨L, e, R, A', B', hm, -, hcls, hT, hp, hne, hE⟩ | ⟨-, -, hno⟩
  · have heq : (e.2.2, e.1, e.2.1) = t := by
      have : t ∈ A' ++ (e.2.2, e.1, e.2.1) :: B' := by rw [← hT]; simp
      rcases List.mem_append.1 this with h1 | h1
      · exact absurd rfl (hne t (by simp [h1]))
      · rcases List.mem_cons.1 h1 with h1 | h1
        · exact h1.symm
        · exact absurd rfl (hne t (by simp [h1]))
    have hs' : Sorted less (L ++ R) := sorted_middle (e := e) (hm ▸ h.sorted)
    have hp' : (L ++ R).Perm ((A ++ []).map elem) := by
      have h2 := h.map
      rw [hm, List.map_append, List.map_cons, ← heq] at h2
      have := (List.perm_middle.symm.trans h2).trans List.perm_middle
      rw [List.map_append]
      exact this.cons_inv
    have hd := Rel.drop (B := []) h hp' hs'
    have hl := listErase_eq (s := { s with map := L ++ R }) (t := t) (A := A) (B := []) h.list h.ids
    refine ⟨{ s with list := A.map (fun t => (t.1, t.2.1)), map := L ++ R }, ?_, by simpa using hd, rfl⟩
    unfold evictLru
    rw [hlast]
    simp only [hE]
    rw [hl]
    simp
  · exact absurd rfl (hno t (by simp))

theorem rel_modify {s : State K V} {A B : List (Entry K V)} {L R : List (Elem K V)} {k : K} {v w : V} {i : Nat}
    (h : Rel less s (A ++ (i, k, v) :: B)) (hm : s.map = L ++ (k, (v, i)) :: R) (hp : (L ++ R).Perm ((A ++ B).map elem)) :
    Rel less { s with map := L ++ (k, (w, i)) :: R } (A ++ (i, k, w) :: B) :=
  { list := by rw [h.list]; simp
    map := by
      show (L ++ (k, (w, i)) :: R).Perm _
      rw [List.map_append, List.map_cons]
      refine List.perm_middle.trans (List.Perm.trans ?_ List.perm_middle.symm)
      rw [← List.map_append]
      exact hp.cons _
    ids := by have := h.ids; simpa using this
    sorted := by
      have h2 := h.sorted
      rw [hm] at h2
      unfold Sorted at *
      rw [List.pairwise_append, List.pairwise_cons] at h2 ⊢
      refine ⟨h2.1, h2.2.1, fun a ha b hb => ?_⟩
      rcases List.mem_cons.1 hb with rfl | hb
      · exact h2.2.2 a ha (k, (v, i)) (by simp)
      · exact h2.2.2 a ha b (by simp [hb])
    fresh := by
      intro x hx
      rcases List.mem_append.1 hx with hx | hx
      · exact h.fresh x (by simp [hx])
      · rcases List.mem_cons.1 hx with rfl | hx
        · exact h.fresh (i, k, v) (by simp)
        · exact h.fresh x (by simp [hx]) }

/-- `move_to_front`. -/
theorem toFront {s : State K V} {A B : List (Entry K V)} {L R : List (Elem K V)} {k : K} {v : V} {i : Nat}
    (h : Rel less s (A ++ (i, k, v) :: B)) (hm : s.map = L ++ (k, (v, i)) :: R) (hp : (L ++ R).Perm ((A ++ B).map elem)) :
    ∃ s' j, moveToFront s L.length = some s' ∧ Rel less s' ((j, k, v) :: (A ++ B)) ∧ s'.capacity = s.capacity := by
  unfold moveToFront
  have hat : s.map[L.length]? = some (k, (v, i)) := by rw [hm]; simp
  rw [hat]
  simp only
  by_cases hb : s.list.head?.map (·.1) = some i
  · rw [if_pos hb]
    have hA : A = [] := by
      cases A with
      | nil => rfl
      | cons a A =>
        rw [h.list] at hb
        simp at hb
        exact absurd hb ((ids_middle h.ids).2 a (by simp))
    subst hA
    exact ⟨s, i, rfl, h, rfl⟩
  · rw [if_neg hb, listErase_eq (t := (i, k, v)) h.list h.ids]
    simp only [listPushFront, List.head?_cons]
    refine ⟨_, s.next, rfl, ?_, rfl⟩
    have hd := Rel.drop h hp (sorted_middle (hm ▸ h.sorted))
    have hmod := modify_at L R (k, (v, i)) (fun e => (e.1, (e.2.1, s.next)))
    rw [← hm] at hmod
    simp only [hmod]
    exact
      { list := by simp
        map := by
          rw [List.map_cons]
          exact List.perm_middle.trans (hp.cons _)
        ids := by
          rw [List.map_cons, List.nodup_cons]
          refine ⟨?_, hd.ids⟩
          intro hx
          obtain ⟨y, hy, hyn⟩ := List.mem_map.1 hx
          have := hd.fresh y hy
          simp only at this hyn
          omega
        sorted := by
          have h2 := h.sorted
          rw [hm] at h2
          unfold Sorted at *
          rw [List.pairwise_append, List.pairwise_cons] at h2 ⊢
          refine ⟨h2.1, h2.2.1, fun a ha b hb => ?_⟩
          rcases List.mem_cons.1 hb with rfl | hb
          · exact h2.2.2 a ha (k, (v, i)) (by simp)
          · exact h2.2.2 a ha b (by simp [hb])
        fresh := by
          intro x hx
          show x.1 < s.next + 1
          rcases List.mem_cons.1 hx with rfl | hx
          · simp
          · have := hd.fresh x hx
            simp only at this
            omega }

theorem push (hw : StrictWeak less) {s : State K V} {T : List (Entry K V)} (h : Rel less s T) {k : K} (v : V)
    {L R : List (Elem K V)} (hm : s.map = L ++ R) (hL : ∀ x ∈ L, less x.1 k = true) (hR : ∀ x ∈ R, less k x.1 = true) :
    Rel less { listPushFront s k with map := mapEmplace less s.map k (v, s.next) } ((s.next, k, v) :: T) := by
  have hE := mapEmplace_none hw (v, s.next) hL hR
  rw [← hm] at hE
  have hs := h.sorted
  refine { list := by simp [listPushFront, h.list], map := ?_, ids := ?_, sorted := ?_, fresh := ?_ }
  · show (mapEmplace less s.map k (v, s.next)).Perm _
    rw [hE, List.map_cons]
    refine List.perm_middle.trans (List.Perm.cons _ ?_)
    rw [← hm]; exact h.map
  · rw [List.map_cons, List.nodup_cons]
    refine ⟨?_, h.ids⟩
    intro hx
    obtain ⟨y, hy, hyn⟩ := List.mem_map.1 hx
    have := h.fresh y hy
    simp only at hyn
    omega
  · show Sorted less (mapEmplace less s.map k (v, s.next))
    rw [hE]
    rw [hm] at hs
    unfold Sorted at *
    rw [List.pairwise_append] at hs ⊢
    rw [List.pairwise_cons]
    refine ⟨hs.1, ⟨fun b hb => hR b hb, hs.2.1⟩, fun a ha b hb => ?_⟩
    rcases List.mem_cons.1 hb with rfl | hb
    · exact hL a ha
    · exact hs.2.2 a ha b hb
  · intro x hx
    show x.1 < s.next + 1
    rcases List.mem_cons.1 hx with rfl | hx
    · simp
    · have := h.fresh x hx
      omega

theorem shrink_spec (hw : StrictWeak less) {cls : K → Q} (hc : Classes less cls) (fuel : Nat) {s : State K V}
    {T : List (Entry K V)} (h : Rel less s T) (hf : T.length ≤ fuel) :
    ∃ s', shrink less fuel s = some s' ∧ Rel less s' (T.take s.capacity) ∧ s'.capacity = s.capacity := by
  induction fuel generalizing s T with
  | zero =>
    have : T = [] := List.length_eq_zero_iff.1 (by omega)
    subst this
    refine ⟨s, ?_, by simpa using h, rfl⟩
    unfold shrink
    rw [if_neg (by rw [h.length]; simp)]
  | succ fuel ih =>
    unfold shrink
    by_cases hl : s.capacity < s.map.length
    · rw [if_pos hl]
      rw [h.length] at hl
      rcases List.eq_nil_or_concat T with rfl | ⟨A, t, rfl⟩
      · simp at hl
      · rw [List.concat_eq_append] at h hl hf ⊢
        obtain ⟨s1, h1, h2, h3⟩ := evict hw hc h
        rw [h1]
        simp only
        simp only [List.length_append, List.length_cons, List.length_nil] at hl hf
        obtain ⟨s2, h4, h5, h6⟩ := ih h2 (by omega)
        refine ⟨s2, h4, ?_, by rw [h6, h3]⟩
        rw [h3] at h5
        rw [List.take_append_of_le_length (by omega)]
        exact h5
    · rw [if_neg hl]
      rw [h.length] at hl
      refine ⟨s, rfl, ?_, rfl⟩
      rw [List.take_of_length_le (by omega)]
      exact h

theorem items_length (cls : K → Q) (T : List (Entry K V)) : (items cls T).length = T.length := by simp [items]

/-- Insertion of a key that is absent. -/
theorem insert_absent (hw : StrictWeak less) [DecidableEq Q] {cls : K → Q} (hc : Classes less cls) {s : State K V}
    {T : List (Entry K V)} (h : Rel less s T) {k : K} (v : V) (oa : Bool) (hf : mapFind less s.map k = none)
    (hno : ∀ t ∈ T, cls t.2.1 ≠ cls k) :
    ∃ s' T', insertImpl less s k v oa = some (s', true) ∧ Rel less s' T' ∧ s'.capacity = s.capacity ∧
      items cls T' = (if T.length < s.capacity then (cls k, v) :: items cls T else
        if s.capacity = 0 then items cls T else (cls k, v) :: (items cls T).dropLast) := by
  unfold insertImpl
  rw [hf]
  simp only
  by_cases h0 : s.capacity = 0
  · refine ⟨s, T, ?_, h, rfl, ?_⟩
    · rw [if_neg (by simp [h0])]
    · rw [if_neg (by omega), if_pos h0]
  · rw [if_pos h0]
    have key : ∀ (s1 : State K V) (T1 : List (Entry K V)), Rel less s1 T1 → s1.capacity = s.capacity →
        (∀ t ∈ T1, cls t.2.1 ≠ cls k) →
        ∃ s' T', (match (listPushFront s1 k).list.head? with
          | none => none
          | some front => some ({ listPushFront s1 k with map := mapEmplace less (listPushFront s1 k).map k (v, front.1) }, true))
            = some (s', true) ∧ Rel less s' T' ∧ s'.capacity = s.capacity ∧ items cls T' = (cls k, v) :: items cls T1 := by
      intro s1 T1 h1 hcap hno1
      rcases h1.search hw hc k with ⟨L, e, R, A, B, -, -, hcls, hT, -, -, -⟩ | ⟨-, ⟨L, R, hm, hL, hR⟩, -⟩
      · exact absurd hcls (hno1 (e.2.2, e.1, e.2.1) (by rw [hT]; simp))
      · exact ⟨_, (s1.next, k, v) :: T1, rfl, push hw h1 v hm hL hR, hcap, rfl⟩
    by_cases hl : s.capacity ≤ s.map.length
    · rw [if_pos hl]
      rw [h.length] at hl
      rcases List.eq_nil_or_concat T with rfl | ⟨A, t, rfl⟩
      · simp at hl; exact absurd hl h0
      · rw [List.concat_eq_append] at h hl hno ⊢
        obtain ⟨s1, h1, h2, h3⟩ := evict hw hc h
        rw [h1]
        simp only
        obtain ⟨s', T', e1, e2, e3, e4⟩ := key s1 A h2 h3 (fun x hx => hno x (by simp [hx]))
        refine ⟨s', T', e1, e2, e3, ?_⟩
        rw [if_neg (by omega), if_neg h0, e4]
        simp [items]
    · rw [if_neg hl]
      rw [h.length] at hl
      simp only
      obtain ⟨s', T', e1, e2, e3, e4⟩ := key s T h rfl hno
      refine ⟨s', T', e1, e2, e3, ?_⟩
      rw [if_pos (by omega), e4]

/-- Every call simulates the abstract cache. -/
theorem step_sim (hw : StrictWeak less) [DecidableEq Q] {cls : K → Q} (hc : Classes less cls) {s : State K V}
    {T : List (Entry K V)} (h : Rel less s T) (c : Call K V) :
    ∃ s' T', call less c s = some (s', ((view cls s T).step (c.rename cls)).2) ∧ Rel less s' T' ∧
      view cls s' T' = ((view cls s T).step (c.rename cls)).1 := by
  cases c with
  | size => exact ⟨s, T, by simp [call, Call.rename, view, Cache.step, h.length, items_length], h, rfl⟩
  | capacity => exact ⟨s, T, by simp [call, Call.rename, view, Cache.step], h, rfl⟩
  | empty =>
    refine ⟨s, T, ?_, h, rfl⟩
    have : s.map.isEmpty = decide (T.length = 0) := by
      rw [← h.length]; cases s.map <;> simp
    simp [call, Call.rename, view, Cache.step, items_length, this]
  | contains k =>
    refine ⟨s, T, ?_, h, rfl⟩
    rcases h.search hw hc k with ⟨L, e, R, A, B, hm, hf, hcls, rfl, hp, hne, -⟩ | ⟨hf, -, hno⟩
    · simp [call, contains, hf, Call.rename, Cache.step, view, (lookup_present hne hcls).1]
    · simp [call, contains, hf, Call.rename, Cache.step, view, lookup_absent hno]
  | clear =>
    exact ⟨clear s, [], rfl,
      { list := rfl, map := .nil, ids := .nil, sorted := .nil, fresh := by simp }, rfl⟩
  | setCapacity n =>
    by_cases hn : n = 0
    · subst hn
      refine ⟨clear { s with capacity := 0 }, [], rfl,
        { list := rfl, map := .nil, ids := .nil, sorted := .nil, fresh := by simp }, ?_⟩
      simp [view, Call.rename, Cache.step, clear, items]
    · have hr : Rel less { s with capacity := n } T := ⟨h.list, h.map, h.ids, h.sorted, h.fresh⟩
      obtain ⟨s', h1, h2, h3⟩ := shrink_spec hw hc s.list.length hr (by rw [h.list]; simp)
      refine ⟨s', T.take n, ?_, h2, ?_⟩
      · simp only [call, setCapacity, if_neg hn, h1, Option.map_some, Call.rename, Cache.step]
      · simp [view, Call.rename, Cache.step, items, h3, List.map_take]
  | insert k v =>
    rcases h.search hw hc k with ⟨L, e, R, A, B, hm, hf, hcls, rfl, hp, hne, -⟩ | ⟨hf, -, hno⟩
    · refine ⟨s, _, ?_, h, ?_⟩
      · simp [call, insertImpl, hf, Call.rename, Cache.step, view, (lookup_present hne hcls).1]
      · simp [Call.rename, Cache.step, view, (lookup_present hne hcls).1]
    · obtain ⟨s', T', h1, h2, h3, h4⟩ := insert_absent hw hc h v false hf hno
      refine ⟨s', T', ?_, h2, ?_⟩
      · simp only [call, h1, Option.map_some, Call.rename, Cache.step, view, lookup_absent hno, items_length]
        by_cases hl : T.length < s.capacity
        · simp [hl]
        · by_cases h0 : s.capacity = 0 <;> simp [hl, h0]
      · simp only [Call.rename, Cache.step, view, lookup_absent hno, items_length, h3, h4]
        by_cases hl : T.length < s.capacity
        · simp [hl]
        · by_cases h0 : s.capacity = 0 <;> simp [hl, h0]
  | insertOrAssign k v =>
    rcases h.search hw hc k with ⟨L, e, R, A, B, hm, hf, hcls, rfl, hp, hne, -⟩ | ⟨hf, -, hno⟩
    · obtain ⟨k', w, i⟩ := e
      have hmod := modify_at L R (k', (w, i)) (fun e => (e.1, (v, e.2.2)))
      rw [← hm] at hmod
      obtain ⟨s', j, h1, h2, h3⟩ := toFront (rel_modify (w := v) h hm hp) rfl hp
      refine ⟨s', _, ?_, h2, ?_⟩
      · simp only at hmod
        simp [call, insertImpl, hf, hmod, h1, Call.rename, Cache.step, view, (lookup_present hne hcls).1]
      · simp only at hcls
        have hi : ∀ x, items cls ((j, k', x) :: (A ++ B)) = (cls k, x) :: items cls (A ++ B) := fun x => by
          simp [items, hcls]
        simp [Call.rename, Cache.step, view, (lookup_present hne hcls).1, (lookup_present hne hcls).2, h3, hi]
    · obtain ⟨s', T', h1, h2, h3, h4⟩ := insert_absent hw hc h v true hf hno
      refine ⟨s', T', ?_, h2, ?_⟩
      · simp only [call, h1, Option.map_some, Call.rename, Cache.step, view, lookup_absent hno, items_length]
        by_cases hl : T.length < s.capacity
        · simp [hl]
        · by_cases h0 : s.capacity = 0 <;> simp [hl, h0]
      · simp only [Call.rename, Cache.step, view, lookup_absent hno, items_length, h3, h4]
        by_cases hl : T.length < s.capacity
        · simp [hl]
        · by_cases h0 : s.capacity = 0 <;> simp [hl, h0]
  | get k =>
    rcases h.search hw hc k with ⟨L, e, R, A, B, hm, hf, hcls, rfl, hp, hne, -⟩ | ⟨hf, -, hno⟩
    · obtain ⟨k', w, i⟩ := e
      obtain ⟨s', j, h1, h2, h3⟩ := toFront h hm hp
      have hat : s.map[L.length]? = some (k', (w, i)) := by rw [hm]; simp
      refine ⟨s', _, ?_, h2, ?_⟩
      · simp [call, get, hf, hat, h1, Call.rename, Cache.step, view, (lookup_present hne hcls).1]
      · simp only at hcls
        have hi : ∀ x, items cls ((j, k', x) :: (A ++ B)) = (cls k, x) :: items cls (A ++ B) := fun x => by
          simp [items, hcls]
        simp [Call.rename, Cache.step, view, (lookup_present hne hcls).1, (lookup_present hne hcls).2, h3, hi]
    · refine ⟨s, T, ?_, h, ?_⟩
      · simp [call, get, hf, Call.rename, Cache.step, view, lookup_absent hno]
      · simp [Call.rename, Cache.step, view, lookup_absent hno]
  | remove k =>
    rcases h.search hw hc k with ⟨L, e, R, A, B, hm, hf, hcls, rfl, hp, hne, -⟩ | ⟨hf, -, hno⟩
    · have hat : s.map[L.length]? = some e := by rw [hm]; simp
      have her : s.map.eraseIdx L.length = L ++ R := by rw [hm]; simp [List.eraseIdx_append_of_length_le]
      have hl := listErase_eq (t := (e.2.2, e.1, e.2.1)) h.list h.ids
      refine ⟨_, A ++ B, ?_, Rel.drop h hp (sorted_middle (hm ▸ h.sorted)), ?_⟩
      · simp only at hl
        simp [call, remove, hf, hat, hl, her, Call.rename, Cache.step, view, (lookup_present hne hcls).1]
      · simp [Call.rename, Cache.step, view, (lookup_present hne hcls).1, (lookup_present hne hcls).2]
    · refine ⟨s, T, ?_, h, ?_⟩
      · simp [call, remove, hf, Call.rename, Cache.step, view, lookup_absent hno]
      · simp [Call.rename, Cache.step, view, lookup_absent hno]

theorem steps_sim (hw : StrictWeak less) [DecidableEq Q] {cls : K → Q} (hc : Classes less cls) {s : State K V}
    {T : List (Entry K V)} (h : Rel less s T) (cs : List (Call K V)) :
    ∃ s' T', calls less cs s = some (s', ((view cls s T).steps (cs.map (·.rename cls))).2) ∧ Rel less s' T' := by
  induction cs generalizing s T with
  | nil => exact ⟨s, T, rfl, h⟩
  | cons c cs ih =>
    obtain ⟨s1, T1, h1, h2, h3⟩ := step_sim hw hc h c
    obtain ⟨s2, T2, h4, h5⟩ := ih h2
    refine ⟨s2, T2, ?_, h5⟩
    simp only [calls, h1, h4, List.map_cons, Cache.steps, h3]

theorem rel_init (n : Nat) : Rel less (Lru.init n : State K V) [] :=
  { list := rfl, map := .nil, ids := .nil, sorted := .nil, fresh := by simp }

end Pluto.LruOrder
