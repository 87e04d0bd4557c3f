/-!
# Model of the buffer of a log file as a linked list, `include/pluto/logger.hpp`

The logging thread walks through the buffer (a `std::list`, line 347) without holding the mutex, from the end back to the
first node it saw when it held the mutex (lines 897-917, loop in lines 841-864), while other threads put entries in front
(line 742).  Here every field of every node is a memory cell, and the accesses are recorded.

Nodes are addresses; address 0 is the node `end()` refers to, which has links but no entry.  The steps of `emplace_front`,
`erase` and `--` are those of a doubly linked list with such an end node, as in the usual implementations of `std::list`;
each access to a cell is a step.  Addresses of erased nodes are not used again.
-/

namespace Pluto.LogBuf
variable {α : Type}

/-- A `std::list`: the links and entries of the nodes, the size, the next unused address (line 347). -/
structure Heap (α : Type) where
  next : Nat → Nat
  prev : Nat → Nat
  data : Nat → Option α
  size : Nat
  fresh : Nat

/-- The memory cells of a list (line 347). -/
inductive Cell
  | next (n : Nat)
  | prev (n : Nat)
  | data (n : Nat)
  | size
  deriving DecidableEq, Repr

/-- A write to a cell (line 742). -/
inductive Write (α : Type)
  | next (n v : Nat)
  | prev (n v : Nat)
  | data (n : Nat) (a : α)
  | size (v : Nat)
  deriving DecidableEq, Repr

/-- The cell that is written (line 742). -/
def Write.cell : Write α → Cell
  | .next n _ => .next n
  | .prev n _ => .prev n
  | .data n _ => .data n
  | .size _ => .size

/-- The effect of a write (line 742). -/
def Heap.write (h : Heap α) : Write α → Heap α
  | .next n v => { h with next := fun x => if x = n then v else h.next x }
  | .prev n v => { h with prev := fun x => if x = n then v else h.prev x }
  | .data n a => { h with data := fun x => if x = n then some a else h.data x }
  | .size v => { h with size := v }

/-- `log_buffer buffer{}` (line 351): an empty list, the end node linked to itself. -/
def Heap.empty : Heap α := { next := fun _ => 0, prev := fun _ => 0, data := fun _ => none, size := 0, fresh := 1 }

/-- The writes of `buffer.emplace_front(...)`, line 742: a new node is filled and linked in before the first one. -/
def emplaceFront (h : Heap α) (a : α) : List (Write α) :=
  [.data h.fresh a, .next h.fresh (h.next 0), .prev h.fresh 0, .prev (h.next 0) h.fresh, .next 0 h.fresh,
    .size (h.size + 1)]

/-- The logging thread between unlocking (line 910) and locking again (line 917), and the other threads: the list; the
writes still to be done by the thread that holds the mutex (none: nobody is in `emplace_front`); `begin`, line 897;
`itWritten`, line 817; whether an end or erased node was dereferenced.  History: the entries read so far, the cells read
by the logging thread, the cells written by the others. -/
structure State (α : Type) where
  heap : Heap α
  pending : List (Write α)
  first : Nat
  it : Nat
  ub : Bool
  out : List α
  reads : List Cell
  writes : List Cell

/-- One step: another thread locks the mutex and begins `emplace_front` of `a`; it does its next write; the logging thread
goes one node back and reads the entry.  `logger.hpp` 742 and 841-864. -/
inductive Event (α : Type)
  | call (a : α)
  | write
  | read
  deriving DecidableEq, Repr

/-- Unlocking, lines 897-910 and 817: `begin` and `end` are taken, nothing is read yet. -/
def start (h : Heap α) : State α :=
  { heap := h, pending := [], first := h.next 0, it := 0, ub := false, out := [], reads := [], writes := [] }

/-- The steps.  `call`: lines 729-742, possible when nobody else holds the mutex.  `read`: `itWritten != begin`,
`--itWritten` and `*itWritten`, lines 841, 861 and 862.  `none`: the step is not possible. -/
def step (s : State α) : Event α → Option (State α)
  | .call a =>
    match s.pending with
    | [] => some { s with heap := { s.heap with fresh := s.heap.fresh + 1 }, pending := emplaceFront s.heap a }
    | _ :: _ => none
  | .write =>
    match s.pending with
    | [] => none
    | w :: ws => some { s with heap := s.heap.write w, pending := ws, writes := w.cell :: s.writes }
  | .read =>
    if s.it = s.first then none
    else
      let it := s.heap.prev s.it
      match s.heap.data it with
      | none => some { s with ub := true, reads := .prev s.it :: .data it :: s.reads }
      | some a => some { s with it := it, out := s.out ++ [a], reads := .prev s.it :: .data it :: s.reads }

/-- Any number of steps (lines 910-917). -/
def run : List (Event α) → State α → Option (State α)
  | [], s => some s
  | e :: es, s =>
    match step s e with
    | none => none
    | some s' => run es s'

/-- Erasing one node: unlinking it, line 920. -/
def unhook (h : Heap α) (n : Nat) : Heap α :=
  { h with
    next := fun x => if x = h.prev n then h.next n else h.next x
    prev := fun x => if x = h.next n then h.prev n else h.prev x
    data := fun x => if x = n then none else h.data x
    size := h.size - 1 }

/-- `buffer.erase(itWritten, end)`, line 920, after locking again: node by node up to the end node.  Erasing an end or
erased node is undefined behaviour, `none`; so is going on after `fuel` = `size()` nodes. -/
def eraseFrom : Nat → Heap α → Nat → Option (Heap α)
  | 0, h, it => if it = 0 then some h else none
  | fuel + 1, h, it =>
    if it = 0 then some h
    else if (h.data it).isNone then none
    else eraseFrom fuel (unhook h it) (h.next it)

/-- `buffer.emplace_front(...)` by a thread that is not disturbed, line 742. -/
def emplace (h : Heap α) (a : α) : Heap α :=
  (emplaceFront h a).foldl Heap.write { h with fresh := h.fresh + 1 }

/-- The entries from the front to the end, following the links: what an observer that holds the mutex sees (a
read-only traversal of the `std::list` of line 347). -/
def walk (h : Heap α) : Nat → Nat → List α
  | 0, _ => []
  | fuel + 1, n =>
    match h.data n with
    | none => []
    | some a => a :: walk h fuel (h.next n)

/-- The entries of the list, the newest first (line 347). -/
def Heap.entries (h : Heap α) : List α := walk h h.size (h.next 0)

/-- The entries added during some steps, the newest first: the specification of what the other threads did (calls of
line 742). -/
def added : List (Event α) → List α
  | [] => []
  | .call a :: es => added es ++ [a]
  | _ :: es => added es

/-- The lists the logger can have: a new one, one entry more, or what is left after the logging thread has gone through
some or all of it while other threads added entries (lines 351, 742 and 897-920). `l` is what should be in it, the newest entry first. -/
inductive Life : Heap α → List α → Prop
  | new : Life Heap.empty []
  | add {h : Heap α} {l : List α} (a : α) : Life h l → Life (emplace h a) (a :: l)
  | flush {h h' : Heap α} {l : List α} {es : List (Event α)} {s : State α} : Life h l → l ≠ [] →
      run es (start h) = some s → s.pending = [] → eraseFrom s.heap.size s.heap s.it = some h' →
      Life h' (added es ++ l.take (l.length - s.out.length))

end Pluto.LogBuf
