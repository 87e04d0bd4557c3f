/-!
# Model of the accesses of `logger` to its memory

Any number of threads use a logger, from its construction to its destruction; each step makes at most a few accesses to the members, to
the map of log files or to the nodes of the buffers, which are listed in `accesses`.  `Model/LogBuf.lean` has one buffer and one walk of the
logging thread through it.  Here there are any number of log files, the walks follow each other, entries are erased, the map grows, and
writers call the logger.  Line numbers are those of `include/pluto/logger.hpp`.

A buffer is a doubly linked list with an end node 0 (`std::list`, line 347), as in the usual implementations.  Addresses of erased nodes
are not used again.  The atomic members (361-369) but for `m_isLogging` are not modelled: branches that depend on them, on sizes or on the
file system may go either way.  The logging thread may visit the log files in any order, also one of them twice or never.  Notifications
are left out: waiting may end at any time.
-/

namespace Pluto.LogRace

/-- Names of log files, numbered.  `logger.hpp` 359. -/
abbrev File := Nat

/-- Log entries, numbered (lines 196-217). -/
abbrev Entry := Nat

/-- The two writers: `m_logWriter`, `m_headerWriter` (lines 372-373). -/
inductive Writer where
  | log | header
deriving DecidableEq, Repr

/-- Memory that threads share (lines 349-373). -/
inductive Loc where
  /-- the links of the tree of `m_logFiles` -/
  | map
  /-- the name of a log file, in the tree -/
  | key (f : File)
  /-- `log_file::filePath` -/
  | path (f : File)
  /-- `log_file::dirsCreated` -/
  | dirs (f : File)
  /-- the size of a buffer -/
  | size (f : File)
  /-- the link of a node to the next one -/
  | next (f : File) (n : Nat)
  /-- the link of a node to the previous one -/
  | prev (f : File) (n : Nat)
  /-- the entry of a node -/
  | val (f : File) (n : Nat)
  | writer (w : Writer)
  /-- `m_loggingThread` -/
  | thread
deriving DecidableEq, Repr

/-- `add_log_to_buffer`, lines 720-756, after `should_log` (605, 628, 687, 332). -/
inductive Add where
  /-- `should_log`, 594-597 -/
  | test
  | lock
  /-- 731 -/
  | find
  /-- 734 -/
  | insert
  /-- 740 -/
  | full
  /-- 742: `buffer.begin()` in `emplace_front` -/
  | begin
  /-- 742: a new node is created, to be put before `b` -/
  | node (b : Nat)
  /-- 742: its links are set -/
  | link (b n : Nat)
  /-- 742: the link of the node before it (`p`) is set -/
  | hook1 (b n p : Nat)
  /-- 742: the link of the node after it is set -/
  | hook2 (b n : Nat)
  /-- 742: the size is increased -/
  | grow
  /-- 744 -/
  | flush
  /-- 747 or 756 -/
  | unlock
deriving DecidableEq, Repr

/-- Copying or assigning a writer, lines 519-529 and 580-592. -/
inductive Cfg where
  | lock | use | unlock
deriving DecidableEq, Repr

/-- `start_logging`, lines 871-925. -/
inductive Loop where
  /-- 874 -/
  | lock
  /-- 876 -/
  | test
  /-- 880: unlocks the mutex -/
  | wait
  /-- 880: locks it -/
  | wake
  /-- 887 -/
  | scan
  /-- 891 -/
  | check (f : File)
  /-- 897 -/
  | begin (f : File)
  /-- 910 -/
  | unlock (f : File) (b : Nat)
  /-- 915: in `write_buffer_to_file` -/
  | await (f : File)
  /-- 917 -/
  | relock (f : File) (it : Nat)
  /-- 920: erases the nodes from `it` on -/
  | erase (f : File) (it : Nat)
  /-- 920: the node before `it` is linked to `nx`, the one after it -/
  | unhook1 (f : File) (it nx : Nat)
  /-- 920: `nx` is linked to `p`, the one before it -/
  | unhook2 (f : File) (it nx p : Nat)
  /-- 920: the node is freed -/
  | free (f : File) (it nx : Nat)
  /-- 925 -/
  | unlockEnd
deriving DecidableEq, Repr

/-- `write_buffer_to_file`, lines 810-869. -/
inductive Put where
  /-- 822-825 -/
  | path
  /-- 828-832 -/
  | dirs
  /-- 839 -/
  | opens
  /-- 841 -/
  | test
  /-- 846-852 -/
  | rotate
  /-- 855 -/
  | header
  /-- 857: the copy of the header writer is called -/
  | headCall
  | headDone
  /-- 861 -/
  | back
  /-- 862: `log_writer()` -/
  | copy
  /-- 862: the copy of the log writer is called -/
  | give
  | done
deriving DecidableEq, Repr

/-- The destructor, lines 381-405. -/
inductive Dtor where
  /-- 383 -/
  | stop
  /-- 386-389 -/
  | join
  /-- 392: `begin` -/
  | list
  /-- 392: the log files that are left -/
  | scan (rest : List File)
  /-- 396 -/
  | check (f : File) (rest : List File)
  /-- 402: `buffer.begin()` -/
  | begin (f : File) (rest : List File)
deriving DecidableEq, Repr

/-- A function call on the stack of a thread.  `logger.hpp` 330-337, 376-405, 720-756, 810-925. -/
inductive Frame where
  /-- code of the program: of a thread or of a writer -/
  | user
  | add (f : File) (e : Entry) (pc : Add)
  /-- copies (or assigns, if `a`) a writer -/
  | cfg (w : Writer) (a : Bool) (pc : Cfg)
  /-- the constructor assigns to `m_loggingThread`, line 378 -/
  | maker
  | loop (pc : Loop)
  /-- `write_buffer_to_file(b, end, …)`, with `itWritten` -/
  | put (f : File) (b it : Nat) (pc : Put)
  | dtor (pc : Dtor)
deriving DecidableEq, Repr

/-- What the threads share.  `logger.hpp` 347-373. -/
structure Shared where
  /-- the names in `m_logFiles` -/
  files : List File := []
  next : File → Nat → Nat := fun _ _ => 0
  prev : File → Nat → Nat := fun _ _ => 0
  /-- `none`: there is no such node -/
  val : File → Nat → Option Entry := fun _ _ => none
  /-- the address of the next node -/
  fresh : Nat := 1
  /-- who holds `m_loggingMutex` -/
  log : Option Nat := none
  /-- who holds `m_configMutex` -/
  cfg : Option Nat := none
  /-- `m_isLogging` -/
  isLogging : Bool := true
  /-- the logging thread has ended -/
  ended : Bool := false
  /-- history: the destructor has joined it -/
  joined : Bool := false
  /-- history: the entries put into the buffer of a log file, in order -/
  added : File → List Entry := fun _ => []
  /-- history: the entries of a log file for which a log writer has been called, in order -/
  given : File → List Entry := fun _ => []
  /-- an access to memory that does not exist -/
  bad : Bool := false

/-- Public functions that use shared memory other than atomic members: `write`, `writef`, `format` or a stream (599-717, 332-336);
`log_writer` and `header_writer`. -/
inductive Fn where
  | log (f : File) (e : Entry)
  | copy (w : Writer)
  | assign (w : Writer)
deriving DecidableEq, Repr

/-- The frame of a call.  `logger.hpp` 330-337, 376-405, 720-756, 810-925. -/
def Fn.frame : Fn → Frame
  | .log f e => .add f e .test
  | .copy w => .cfg w false .lock
  | .assign w => .cfg w true .lock

/-- How a thread goes on.  `logger.hpp` 330-337, 376-405, 720-756, 810-925. -/
inductive Choice where
  /-- in the usual way, or returns -/
  | go
  /-- in the other way -/
  | alt
  /-- `filesystem_error` -/
  | fail
  | file (f : File)
  | call (fn : Fn)
deriving DecidableEq, Repr

/-- A memory cell gets another value.  `logger.hpp` 347-373. -/
def upd {α : Type} (g : File → Nat → α) (f : File) (n : Nat) (v : α) : File → Nat → α :=
  fun f' n' => if f' = f ∧ n' = n then v else g f' n'

/-- Something is added to the history of a log file.  `logger.hpp` 742 and 862. -/
def app (g : File → List Entry) (f : File) (l : List Entry) : File → List Entry := fun f' => if f' = f then g f' ++ l else g f'

/-- `write_buffer_to_file` returns `it` to its caller.  `logger.hpp` 868. -/
def ret (it : Nat) : List Frame → List Frame
  | .loop (.await f) :: k => .loop (.relock f it) :: k
  | k => k

/-- A step of `add_log_to_buffer`, lines 720-756; `k` are the callers. -/
def goAdd (s : Shared) (i : Nat) (f : File) (e : Entry) (k : List Frame) (c : Choice) : Add → Option (Shared × List Frame)
  | .test => some (s, if s.isLogging = true ∧ c ≠ .alt then .add f e .lock :: k else k)
  | .lock => if s.log = none then some ({ s with log := some i }, .add f e .find :: k) else none
  | .find => some (s, .add f e (if f ∈ s.files then .full else .insert) :: k)
  | .insert =>
    some ({ s with files := s.files ++ [f], next := upd s.next f 0 0, prev := upd s.prev f 0 0 }, .add f e .full :: k)
  | .full => some (s, .add f e (if c = .alt then .unlock else .begin) :: k)
  | .begin => some (s, .add f e (.node (s.next f 0)) :: k)
  | .node b => some ({ s with val := upd s.val f s.fresh (some e), fresh := s.fresh + 1 }, .add f e (.link b s.fresh) :: k)
  | .link b n =>
    some ({ s with next := upd s.next f n b, prev := upd s.prev f n (s.prev f b), added := app s.added f [e] },
      .add f e (.hook1 b n (s.prev f b)) :: k)
  | .hook1 b n p => some ({ s with next := upd s.next f p n }, .add f e (.hook2 b n) :: k)
  | .hook2 b n => some ({ s with prev := upd s.prev f b n }, .add f e .grow :: k)
  | .grow => some (s, .add f e .flush :: k)
  | .flush => some (s, .add f e .unlock :: k)
  | .unlock => some ({ s with log := none }, k)

/-- A step of the functions that copy or assign a writer, lines 519-529 and 580-592. -/
def goCfg (s : Shared) (i : Nat) (w : Writer) (a : Bool) (k : List Frame) : Cfg → Option (Shared × List Frame)
  | .lock => if s.cfg = none then some ({ s with cfg := some i }, .cfg w a .use :: k) else none
  | .use => some (s, .cfg w a .unlock :: k)
  | .unlock => some ({ s with cfg := none }, k)

/-- A step of `start_logging`, lines 871-925. -/
def goLoop (s : Shared) (i : Nat) (k : List Frame) (c : Choice) : Loop → Option (Shared × List Frame)
  | .lock => if s.log = none then some ({ s with log := some i }, .loop .test :: k) else none
  | .test => some (s, .loop (if s.isLogging then (if c = .alt then .wait else .scan) else .unlockEnd) :: k)
  | .wait => some ({ s with log := none }, .loop .wake :: k)
  | .wake => if s.log = none then some ({ s with log := some i }, .loop .test :: k) else none
  | .scan =>
    match c with
    | .file f => if f ∈ s.files then some (s, .loop (.check f) :: k) else none
    | _ => some (s, .loop .test :: k)
  | .check f => some (s, .loop (if s.next f 0 = 0 ∨ c = .alt then .scan else .begin f) :: k)
  | .begin f => some (s, .loop (.unlock f (s.next f 0)) :: k)
  | .unlock f b => some ({ s with log := none }, .put f b 0 .path :: .loop (.await f) :: k)
  | .await _ => none
  | .relock f it => if s.log = none then some ({ s with log := some i }, .loop (.erase f it) :: k) else none
  | .erase f it => some (s, .loop (if it = 0 then .scan else .unhook1 f it (s.next f it)) :: k)
  | .unhook1 f it nx => some ({ s with next := upd s.next f (s.prev f it) nx }, .loop (.unhook2 f it nx (s.prev f it)) :: k)
  | .unhook2 f it nx p => some ({ s with prev := upd s.prev f nx p }, .loop (.free f it nx) :: k)
  | .free f it nx => some ({ s with val := upd s.val f it none }, .loop (.erase f nx) :: k)
  | .unlockEnd => some ({ s with log := none, ended := true }, k)

/-- A step of `write_buffer_to_file`, lines 810-869. -/
def goPut (s : Shared) (f : File) (b it : Nat) (k : List Frame) (c : Choice) : Put → Option (Shared × List Frame)
  | .path => some (s, if c = .fail then ret it k else .put f b it .dirs :: k)
  | .dirs => some (s, if c = .fail then ret it k else .put f b it .opens :: k)
  | .opens => some (s, if c = .fail then ret it k else .put f b it .test :: k)
  | .test => some (s, if it = b then ret it k else .put f b it .rotate :: k)
  | .rotate => some (s, if c = .fail then ret it k else .put f b it .header :: k)
  | .header => some (s, if c = .alt then .put f b it .back :: k else .cfg .header false .lock :: .put f b it .headCall :: k)
  | .headCall => some (s, .user :: .put f b it .headDone :: k)
  | .headDone => some (s, if c = .fail then ret it k else .put f b it .back :: k)
  | .back => some (s, .put f b (s.prev f it) .copy :: k)
  | .copy => some (s, .cfg .log false .lock :: .put f b it .give :: k)
  | .give => some ({ s with given := app s.given f (s.val f it).toList }, .user :: .put f b it .done :: k)
  | .done => some (s, if c = .fail then ret it k else .put f b it .test :: k)

/-- A step of the destructor, lines 381-405. -/
def goDtor (s : Shared) (k : List Frame) : Dtor → Option (Shared × List Frame)
  | .stop => some ({ s with isLogging := false }, .dtor .join :: k)
  | .join => if s.ended then some ({ s with joined := true }, .dtor .list :: k) else none
  | .list => some (s, .dtor (.scan s.files) :: k)
  | .scan [] => some (s, k)
  | .scan (f :: rest) => some (s, .dtor (.check f rest) :: k)
  | .check f rest => some (s, .dtor (if s.next f 0 = 0 then .scan rest else .begin f rest) :: k)
  | .begin f rest => some (s, .put f (s.next f 0) 0 .path :: .dtor (.scan rest) :: k)

/-- A step of a thread.  `logger.hpp` 330-337, 376-405, 720-756, 810-925. -/
def go (s : Shared) (i : Nat) (c : Choice) : List Frame → Option (Shared × List Frame)
  | [] => none
  | .user :: k =>
    match c with
    | .call fn => some (s, fn.frame :: .user :: k)
    | _ => some (s, k)
  | .add f e pc :: k => goAdd s i f e k c pc
  | .cfg w a pc :: k => goCfg s i w a k pc
  | .maker :: k => some (s, k)
  | .loop pc :: k => goLoop s i k c pc
  | .put f b it pc :: k => goPut s f b it k c pc
  | .dtor pc :: k => goDtor s k pc

/-- The accesses of the next step of a function, with whether they write.
`logger.hpp` 330-337, 376-405, 720-756, 810-925. -/
def frameAccesses (s : Shared) : Frame → List (Loc × Bool)
  | .user => []
  | .maker => [(.thread, true)]
  | .cfg w a .use => [(.writer w, a)]
  | .cfg _ _ _ => []
  | .add f _ pc =>
    match pc with
    | .find => (.map, false) :: s.files.map fun g => (.key g, false)
    | .insert =>
      [(.map, true), (.key f, true), (.path f, true), (.dirs f, true), (.size f, true), (.next f 0, true), (.prev f 0, true)]
    | .full | .flush => [(.size f, false)]
    | .begin => [(.next f 0, false)]
    | .node _ => [(.val f s.fresh, true), (.next f s.fresh, true), (.prev f s.fresh, true)]
    | .link b n => [(.next f n, true), (.prev f b, false), (.prev f n, true)]
    | .hook1 b _ p => [(.prev f b, false), (.next f p, true)]
    | .hook2 b _ => [(.prev f b, true)]
    | .grow => [(.size f, true)]
    | .test | .lock | .unlock => []
  | .loop pc =>
    match pc with
    | .scan => [(.map, false)]
    | .check f => [(.next f 0, false), (.size f, false)]
    | .begin f => [(.next f 0, false)]
    | .erase f it => if it = 0 then [] else [(.next f it, false)]
    | .unhook1 f it _ => [(.next f it, false), (.prev f it, false), (.next f (s.prev f it), true)]
    | .unhook2 f _ nx _ => [(.prev f nx, true)]
    | .free f it _ => [(.val f it, true), (.next f it, true), (.prev f it, true), (.size f, true)]
    | .lock | .test | .wait | .wake | .unlock _ _ | .await _ | .relock _ _ | .unlockEnd => []
  | .put f _ it pc =>
    match pc with
    | .path => [(.key f, false), (.path f, true)]
    | .dirs => [(.path f, false), (.dirs f, true)]
    | .opens | .rotate => [(.path f, false)]
    | .back => [(.prev f it, false)]
    | .give => [(.val f it, false)]
    | .test | .header | .headCall | .headDone | .copy | .done => []
  | .dtor pc =>
    match pc with
    | .join => [(.thread, true)]
    | .list | .scan _ => [(.map, false)]
    | .check f _ | .begin f _ => [(.next f 0, false)]
    | .stop => []

/-- What a called function may access for its caller: a log writer, the entry it was given (862). -/
def lent : Frame → List (Loc × Bool)
  | .put f _ it .done => [(.val f it, false)]
  | _ => []

/-- The accesses a thread may make next.  `logger.hpp` 330-337, 376-405, 720-756, 810-925. -/
def accesses (s : Shared) : List Frame → List (Loc × Bool)
  | [] => []
  | fr :: k => frameAccesses s fr ++ k.flatMap lent

/-- Frames whose next step creates the memory it writes.  `logger.hpp` 330-337, 376-405, 720-756, 810-925. -/
def creates : Frame → Bool
  | .add _ _ .insert | .add _ _ (.node _) => true
  | _ => false

/-- There is such a memory cell.  `logger.hpp` 347-373. -/
def exists' (s : Shared) : Loc → Bool
  | .key f | .path f | .dirs f | .size f => f ∈ s.files
  | .next f n | .prev f n => f ∈ s.files && (n == 0 || (s.val f n).isSome)
  | .val f n => f ∈ s.files && (s.val f n).isSome
  | .map | .writer _ | .thread => true

/-- All accesses are to memory that exists.  `logger.hpp` 330-337, 376-405, 720-756, 810-925. -/
def sound (s : Shared) (st : List Frame) : Bool :=
  match st.head? with
  | some fr => creates fr || (accesses s st).all fun a => exists' s a.1
  | none => true

/-- The logger and all threads.  Thread 0 constructs it, thread 1 is the logging thread.  `logger.hpp` 347-373. -/
structure State where
  sh : Shared := {}
  threads : List (List Frame) := [[.maker], [.loop .lock]]
  /-- the thread that calls the destructor -/
  destroyer : Option Nat := none

/-- What can happen next.  `logger.hpp` 330-337, 376-405, 720-756, 810-925. -/
inductive Event where
  /-- a thread goes on -/
  | go (i : Nat) (c : Choice)
  /-- another thread starts to use the logger -/
  | user
  /-- the destructor is called -/
  | destroy
deriving DecidableEq, Repr

/-- One step; `none` if the event cannot happen.  Nobody uses the logger before it is constructed, and it is destroyed when nobody but
the logging thread uses it any more.  `logger.hpp` 330-337, 376-405, 720-756, 810-925. -/
def step (s : State) : Event → Option State
  | .go i c =>
    match s.threads[i]? with
    | some st =>
      match go s.sh i c st with
      | some (sh, st') => some { s with sh := { sh with bad := s.sh.bad || !sound s.sh st }, threads := s.threads.set i st' }
      | none => none
    | none => none
  | .user => if s.destroyer = none ∧ s.threads[0]? = some [] then some { s with threads := s.threads ++ [[.user]] } else none
  | .destroy =>
    if s.destroyer = none ∧ (s.threads.eraseIdx 1).all List.isEmpty then
      some { s with threads := s.threads ++ [[.dtor .stop]], destroyer := some s.threads.length }
    else none

/-- Some steps.  `logger.hpp` 330-337, 376-405, 720-756, 810-925. -/
def run (s : State) : List Event → Option State
  | [] => some s
  | ev :: evs =>
    match step s ev with
    | some s' => run s' evs
    | none => none

/-- States that executions reach all of whose events `ok` allows.  `logger.hpp` 330-337, 376-405, 720-756, 810-925. -/
inductive Reachable (ok : State → Event → Prop) : State → Prop where
  | init : Reachable ok {}
  | step {s s' : State} (ev : Event) : Reachable ok s → ok s ev → step s ev = some s' → Reachable ok s'

end Pluto.LogRace
