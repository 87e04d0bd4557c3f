/-!
# What splitting, joining, replacing and stripping mean

Independent of the model: plain statements about lists of characters.
-/

namespace Pluto.StrSpec

variable {α : Type}

/-- `x` occurs in `s` at position `i`. -/
def Occurs (x s : List α) (i : Nat) : Prop :=
  ∃ a b, s = a ++ x ++ b ∧ a.length = i

/-- `x` occurs in `s` somewhere. -/
def Contains (x s : List α) : Prop := ∃ i, Occurs x s i

/-- The number of occurrences of `x` in `s` that do not overlap, counted from the left:
look for `x` at the front; if it is there, count it and go on after it, else go on with
the next character.  Meant for `x ≠ []`. -/
def count [DecidableEq α] (x : List α) : List α → Nat
  | [] => 0
  | c :: s =>
    if x.isPrefixOf (c :: s) then 1 + count x (s.drop (x.length - 1)) else count x s
termination_by s => s.length
decreasing_by
  · simp; omega
  · simp

/-- The positions at which `join` puts the separator: after the first piece, after the
second, and so on, but not after the last one. -/
def separatorPositions (sep : List α) : List (List α) → List Nat
  | [] => []
  | [_] => []
  | p :: q :: ps =>
    p.length :: (separatorPositions sep (q :: ps)).map (· + (p.length + sep.length))

/-- No piece can be confused with a separator when reading from the left: in every piece
but the last, followed by the separator, the separator is found first at the end of
the piece; the last piece does not contain it. -/
def Readable (sep : List α) : List (List α) → Prop
  | [] => False
  | [p] => ¬ Contains sep p
  | p :: q :: ps => (∀ i, Occurs sep (p ++ sep) i → i = p.length) ∧ Readable sep (q :: ps)

/-- `Runs gap s ps`: the pieces `ps` are the maximal runs of characters of `s` that are
not gaps, in order.  So `s` is gaps, a non-empty piece without gaps, gaps, a piece, and
so on; two pieces are separated by at least one gap. -/
inductive Runs (gap : α → Bool) : List α → List (List α) → Prop
  | none (g : List α) (hg : ∀ c ∈ g, gap c = true) : Runs gap g []
  | last (g p : List α) (hg : ∀ c ∈ g, gap c = true) (hp : p ≠ [])
      (hn : ∀ c ∈ p, gap c = false) : Runs gap (g ++ p) [p]
  | more (g p : List α) (c : α) (s : List α) (ps : List (List α))
      (hg : ∀ c ∈ g, gap c = true) (hp : p ≠ []) (hn : ∀ c ∈ p, gap c = false)
      (hc : gap c = true) (rest : Runs gap s ps) : Runs gap (g ++ p ++ c :: s) (p :: ps)

/-- `r` is `s` without its leading spaces. -/
def LeftStripped (space : α → Bool) (s r : List α) : Prop :=
  (∃ a, s = a ++ r ∧ ∀ c ∈ a, space c = true) ∧ ∀ c, r.head? = some c → space c = false

/-- `r` is `s` without its trailing spaces. -/
def RightStripped (space : α → Bool) (s r : List α) : Prop :=
  (∃ b, s = r ++ b ∧ ∀ c ∈ b, space c = true) ∧ ∀ c, r.getLast? = some c → space c = false

/-- `r` is `s` without its leading and trailing spaces. -/
def Stripped (space : α → Bool) (s r : List α) : Prop :=
  (∃ a b, s = a ++ r ++ b ∧ (∀ c ∈ a, space c = true) ∧ ∀ c ∈ b, space c = true) ∧
    (∀ c, r.head? = some c → space c = false) ∧ ∀ c, r.getLast? = some c → space c = false

end Pluto.StrSpec
