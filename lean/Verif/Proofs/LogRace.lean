import Verif.Spec.LogRace

/-!
# Proofs about the accesses of `logger`

Ghost state: the nodes of the buffer of `f` are `u f ++ h f` from front to back; the log writer has been called for those in `h f`.
-/

namespace Pluto.LogRace

/-- From `a`, the nodes `l` are linked in both directions, and then `b`. -/
def Seg (g p : Nat → Nat) (a : Nat) : List Nat → Nat → Prop
  | [], b => g a = b ∧ p b = a
  | c :: l, b => g a = c ∧ p c = a ∧ Seg g p c l b

theorem seg_append {g p : Nat → Nat} {a y b : Nat} {l1 l2 : List Nat} :
    Seg g p a (l1 ++ y :: l2) b ↔ Seg g p a l1 y ∧ Seg g p y l2 b := by
  induction l1 generalizing a with
  | nil => simp only [List.nil_append, Seg, and_assoc]
  | cons c l1 ih => simp only [List.cons_append, Seg, ih, and_assoc]

theorem seg_head {g p : Nat → Nat} {a b : Nat} {l : List Nat} (h : Seg g p a l b) : g a = l.headD b ∧ p (l.headD b) = a := by
  cases l with
  | nil => exact h
  | cons c l => exact ⟨h.1, h.2.1⟩

theorem seg_congr {g p g' p' : Nat → Nat} {a b : Nat} {l : List Nat} (h : Seg g p a l b) (hg : ∀ x ∈ a :: l, g' x = g x)
    (hp : ∀ x ∈ b :: l, p' x = p x) : Seg g' p' a l b := by
  induction l generalizing a with
  | nil => exact ⟨by rw [hg a (by simp)]; exact h.1, by rw [hp b (by simp)]; exact h.2⟩
  | cons c l ih =>
    refine ⟨by rw [hg a (by simp)]; exact h.1, by rw [hp c (by simp)]; exact h.2.1, ih h.2.2 ?_ ?_⟩
    · intro x hx; exact hg x (List.mem_cons_of_mem _ hx)
    · intro x hx
      rcases List.mem_cons.1 hx with e | hx
      · exact hp x (by simp [e])
      · exact hp x (by simp [hx])

theorem seg_last {g p : Nat → Nat} {a b : Nat} {l : List Nat} (h : Seg g p a l b) : p b ∈ a :: l := by
  induction l generalizing a with
  | nil => rw [h.2]; simp
  | cons c l ih => exact List.mem_cons_of_mem _ (ih h.2.2)

/-- One cell of a function is changed. -/
def set1 (g : Nat → Nat) (x v : Nat) : Nat → Nat := fun y => if y = x then v else g y

theorem set1_eq (g : Nat → Nat) (x v : Nat) : set1 g x v x = v := by simp [set1]
theorem set1_ne (g : Nat → Nat) {x y : Nat} (v : Nat) (h : y ≠ x) : set1 g x v y = g y := by simp [set1, h]

theorem seg_retarget {g p : Nat → Nat} {a b v : Nat} {l : List Nat} (h : Seg g p a l b) (hn : (a :: l).Nodup) (hv : v ∉ l) :
    Seg (set1 g (p b) v) (set1 p v (p b)) a l v := by
  induction l generalizing a with
  | nil => rw [h.2]; exact ⟨set1_eq .., set1_eq ..⟩
  | cons c l ih =>
    have hl := seg_last h.2.2
    rw [List.nodup_cons] at hn
    refine ⟨?_, ?_, ih h.2.2 hn.2 (fun e => hv (List.mem_cons_of_mem _ e))⟩
    · rw [set1_ne]
      · exact h.1
      · intro e; rw [e] at hn; exact hn.1 hl
    · rw [set1_ne]
      · exact h.2.1
      · intro e; exact hv (by simp [e])

/-- The writes of `emplace_front`. -/
theorem seg_push {g p : Nat → Nat} {n : Nat} {l : List Nat} (h : Seg g p 0 l 0) (h0 : n ≠ 0) (hn : n ∉ l) (hl : l.Nodup) (hz : 0 ∉ l) :
    Seg (set1 (set1 g n (l.headD 0)) 0 n) (set1 (set1 p n 0) (l.headD 0) n) 0 (n :: l) 0 := by
  refine ⟨set1_eq .., ?_, ?_⟩
  · rw [set1_ne]
    · exact set1_eq ..
    · intro e
      cases l with
      | nil => exact h0 e
      | cons c l => exact hn (by simp [e])
  · cases l with
    | nil =>
      refine ⟨?_, set1_eq ..⟩
      rw [set1_ne _ _ h0]; exact set1_eq ..
    | cons c l =>
      rw [List.nodup_cons] at hl
      have hcn : c ≠ n := fun e => hn (by simp [e])
      refine ⟨?_, set1_eq .., seg_congr h.2.2 ?_ ?_⟩
      · rw [set1_ne _ _ h0]; exact set1_eq ..
      · intro x hx
        have hx0 : x ≠ 0 := fun e => hz (e ▸ hx)
        have hxn : x ≠ n := fun e => hn (e ▸ hx)
        rw [set1_ne _ _ hx0, set1_ne _ _ hxn]
      · intro x hx
        have hxc : x ≠ c := by
          intro e
          rcases List.mem_cons.1 hx with e' | hx
          · exact hz (by simp [← e', e])
          · exact hl.1 (e ▸ hx)
        have hxn : x ≠ n := by
          intro e
          rcases List.mem_cons.1 hx with e' | hx
          · exact h0 (e ▸ e')
          · exact hn (by simp [← e, hx])
        show set1 (set1 p n 0) c n x = p x
        rw [set1_ne _ _ hxc, set1_ne _ _ hxn]

/-- The writes of `erase`. -/
theorem seg_remove {g p : Nat → Nat} {y : Nat} {l1 l2 : List Nat} (h : Seg g p 0 (l1 ++ y :: l2) 0) (hl : (l1 ++ y :: l2).Nodup)
    (hz : 0 ∉ l1 ++ y :: l2) :
    Seg (set1 g (p y) (l2.headD 0)) (set1 p (l2.headD 0) (p y)) 0 (l1 ++ l2) 0 := by
  rw [seg_append] at h
  have hlast := seg_last h.1
  rw [List.nodup_append] at hl
  have hz1 : 0 ∉ l1 := fun e => hz (List.mem_append_left _ e)
  have hn1 : (0 :: l1).Nodup := List.nodup_cons.2 ⟨hz1, hl.1⟩
  cases l2 with
  | nil =>
    rw [List.append_nil]
    exact seg_retarget h.1 hn1 hz1
  | cons c l2 =>
    have hc1 : c ∉ l1 := fun e => hl.2.2 c e c (by simp) rfl
    have hl2 : (c :: l2).Nodup := (List.nodup_cons.1 hl.2.1).2
    rw [seg_append]
    refine ⟨seg_retarget h.1 hn1 hc1, seg_congr h.2.2.2 ?_ ?_⟩
    · intro x hx
      refine set1_ne _ _ ?_
      intro e
      rw [← e] at hlast
      rcases List.mem_cons.1 hlast with e | e
      · exact hz (List.mem_append_right _ (List.mem_cons_of_mem _ (e ▸ hx)))
      · exact hl.2.2 x e x (List.mem_cons_of_mem _ hx) rfl
    · intro x hx
      refine set1_ne _ _ ?_
      intro e
      have e : x = c := e
      rcases List.mem_cons.1 hx with e' | hx
      · exact hz (List.mem_append_right _ (by simp [← e', e]))
      · exact (List.nodup_cons.1 hl2).1 (e ▸ hx)

theorem upd_same {α : Type} (g : File → Nat → α) (f : File) (n : Nat) (v : α) (x : Nat) : upd g f n v f x = if x = n then v else g f x := by
  simp [upd]
theorem upd_other {α : Type} (g : File → Nat → α) {f f' : File} (n : Nat) (v : α) (h : f' ≠ f) : upd g f n v f' = g f' := by
  funext x; simp [upd, h]
theorem upd_set1 (g : File → Nat → Nat) (f : File) (n v : Nat) : upd g f n v f = set1 (g f) n v := by
  funext x; simp [upd, set1]

/-- The function holds `m_loggingMutex`. -/
def locked : List Frame → Bool
  | .add _ _ .test :: _ | .add _ _ .lock :: _ => false
  | .add _ _ _ :: _ => true
  | .loop .lock :: _ | .loop .wake :: _ | .loop (.await _) :: _ | .loop (.relock _ _) :: _ => false
  | .loop _ :: _ => true
  | _ => false

/-- The function holds `m_configMutex`. -/
def cfgLocked : List Frame → Bool
  | .cfg _ _ .use :: _ | .cfg _ _ .unlock :: _ => true
  | _ => false

/-- What a thread is for. -/
inductive Role where
  | maker | logger | dtor | user
deriving DecidableEq

def role (s : State) (i : Nat) : Role :=
  if i = 0 then .maker else if i = 1 then .logger else if s.destroyer = some i then .dtor else .user

section
variable (nf : Prop) (s : Shared) (u h : File → List Nat)

def AddOk (f : File) (e : Entry) : Add → Prop
  | .test | .lock | .find | .unlock => True
  | .insert => f ∉ s.files
  | .full | .begin | .grow | .flush => f ∈ s.files
  | .node b => f ∈ s.files ∧ b = (u f ++ h f).headD 0
  | .link b n => f ∈ s.files ∧ b = (u f ++ h f).headD 0 ∧ n ∉ u f ++ h f ∧ 0 < n ∧ n < s.fresh ∧ s.val f n = some e
  | .hook1 b n p => f ∈ s.files ∧ p = 0 ∧ ∃ q, u f ++ h f = n :: q ∧ b = q.headD 0
  | .hook2 b n => f ∈ s.files ∧ ∃ q, u f ++ h f = n :: q ∧ b = q.headD 0

def PutOk (r : Role) (f : File) (b it : Nat) (pc : Put) : Prop :=
  f ∈ s.files ∧ ∃ w x, u f = w ++ x ∧ (x ++ h f).head? = some b ∧ (r = .dtor → w = []) ∧
    match pc with
    | .path | .dirs | .opens | .test => it = (h f).headD 0
    | .rotate | .header | .headCall | .headDone | .back => it = (h f).headD 0 ∧ x ≠ []
    | .copy | .give => ∃ x', x = x' ++ [it]
    | .done => it = (h f).headD 0 ∧ h f ≠ []

def LoopOk : Loop → Prop
  | .lock | .test | .wait | .wake | .scan | .unlockEnd => True
  | .await _ => False
  | .check f => f ∈ s.files
  | .begin f => f ∈ s.files ∧ u f ++ h f ≠ []
  | .unlock f b => f ∈ s.files ∧ (u f ++ h f).head? = some b
  | .relock f it | .erase f it => f ∈ s.files ∧ it = (h f).headD 0
  | .unhook1 f it nx => f ∈ s.files ∧ ∃ h', h f = it :: h' ∧ nx = h'.headD 0
  | .unhook2 f it nx _ | .free f it nx => f ∈ s.files ∧ it ∉ u f ++ h f ∧ 0 < it ∧ (s.val f it).isSome ∧ nx = (h f).headD 0

/-- The files `rest` have to be visited, after those in `skip`. -/
def RestOk (skip rest : List File) : Prop :=
  s.isLogging = false ∧ s.joined = true ∧ s.ended = true ∧ (skip ++ rest).Nodup ∧ (∀ g ∈ rest, g ∈ s.files ∧ h g = []) ∧
    (nf → ∀ g ∈ s.files, g ∉ skip → g ∉ rest → u g = [])

def DtorOk : Dtor → Prop
  | .stop => s.joined = false
  | .join => s.isLogging = false ∧ s.joined = false
  | .list => RestOk nf s u h [] s.files
  | .scan rest => RestOk nf s u h [] rest
  | .check f rest => RestOk nf s u h [] (f :: rest)
  | .begin f rest => RestOk nf s u h [] (f :: rest) ∧ u f ++ h f ≠ []

/-- The caller of `write_buffer_to_file`. -/
inductive Base : Role → File → List Frame → Prop where
  | loop (f) : s.ended = false → Base .logger f [.loop (.await f)]
  | dtor (f rest) : RestOk nf s u h [f] rest → Base .dtor f [.dtor (.scan rest)]

/-- The stack of a thread. -/
inductive Ok : Role → List Frame → Prop where
  | nil (r) : (r = .logger → s.ended = true) → (r = .dtor → RestOk nf s u h [] []) → Ok r []
  | maker : Ok .maker [.maker]
  | user : Ok .user [.user]
  | loop (pc) : s.ended = false → LoopOk s u h pc → Ok .logger [.loop pc]
  | dtor (pc) : DtorOk nf s u h pc → Ok .dtor [.dtor pc]
  | put (r f b it pc k) : Base nf s u h r f k → PutOk s u h r f b it pc → Ok r (.put f b it pc :: k)
  | writer (r f b it pc k) : Ok r (.put f b it pc :: k) → pc = .headDone ∨ pc = .done → Ok r (.user :: .put f b it pc :: k)
  | add (r f e pc k) : Ok r (.user :: k) → AddOk s u h f e pc → (r = .dtor → pc = .test) → Ok r (.add f e pc :: .user :: k)
  | cfgUser (r w a pc k) : Ok r (.user :: k) → Ok r (.cfg w a pc :: .user :: k)
  | cfgPut (r w a pc f b it pc' k) : Ok r (.put f b it pc' :: k) → pc' = .headCall ∨ pc' = .give →
      Ok r (.cfg w a pc :: .put f b it pc' :: k)

/-- What holds between steps of all threads, but for the links. -/
structure Glob : Prop where
  bad : s.bad = false
  fresh : 0 < s.fresh
  files : s.files.Nodup
  node : ∀ f, ∀ n ∈ u f ++ h f, 0 < n ∧ n < s.fresh ∧ (s.val f n).isSome
  val : ∀ f n, (s.val f n).isSome → n < s.fresh
  nodup : ∀ f, (u f ++ h f).Nodup
  none : ∀ f, f ∉ s.files → u f ++ h f = []
  hist : ∀ f, s.added f = s.given f ++ (u f).reverse.filterMap (s.val f)
end

/-- The log file whose entries the logging thread writes or erases. -/
def cur (st : List Frame) : Option File :=
  match st.getLast? with
  | some (.loop (.await f)) | some (.loop (.relock f _)) | some (.loop (.erase f _)) | some (.loop (.unhook1 f _ _))
  | some (.loop (.unhook2 f _ _ _)) | some (.loop (.free f _ _)) => some f
  | _ => none

/-- What the holder of `m_loggingMutex` is doing. -/
def hf (s : State) : Option Frame :=
  match s.sh.log with
  | some i => s.threads[i]?.bind List.head?
  | none => none

/-- The links when the holder of the mutex has done what it is doing. -/
def vnext (fr : Option Frame) (f : File) (g : Nat → Nat) : Nat → Nat :=
  match fr with
  | some (.add f' _ (.hook1 _ n p)) => if f' = f then set1 g p n else g
  | _ => g

def vprev (fr : Option Frame) (f : File) (g : Nat → Nat) : Nat → Nat :=
  match fr with
  | some (.add f' _ (.hook1 b n _)) => if f' = f then set1 g b n else g
  | some (.add f' _ (.hook2 b n)) => if f' = f then set1 g b n else g
  | some (.loop (.unhook2 f' _ nx p)) => if f' = f then set1 g nx p else g
  | _ => g

/-- A new node that is being linked. -/
def pending (fr : Option Frame) : Option (File × Nat) :=
  match fr with
  | some (.add f _ (.hook1 _ n _)) => some (f, n)
  | some (.add f _ (.hook2 _ n)) => some (f, n)
  | _ => none

structure Inv (nf : Prop) (s : State) (u h : File → List Nat) : Prop where
  glob : Glob s.sh u h
  heap : ∀ f ∈ s.sh.files, Seg (vnext (hf s) f (s.sh.next f)) (vprev (hf s) f (s.sh.prev f)) 0 (u f ++ h f) 0
  thr : ∀ i st, s.threads[i]? = some st → Ok nf s.sh u h (role s i) st
  lock : ∀ i, s.sh.log = some i ↔ ∃ st, s.threads[i]? = some st ∧ locked st = true
  cfg : ∀ i, s.sh.cfg = some i ↔ ∃ st, s.threads[i]? = some st ∧ cfgLocked st = true
  idle : s.sh.joined = false → ∀ f, h f ≠ [] → ∃ st, s.threads[1]? = some st ∧ cur st = some f
  pend : ∀ (f : File) (n : Nat), pending (hf s) = some (f, n) → ∀ (j : Nat) (st : List Frame) (b it : Nat) (pc : Put), s.threads[j]? = some st → Frame.put f b it pc ∈ st → b ≠ n
  fin : ∀ d, s.destroyer = some d → 2 ≤ d ∧ d < s.threads.length ∧ ∀ j st, s.threads[j]? = some st → j ≠ 1 → j ≠ d → st = []
  len : 2 ≤ s.threads.length
  joined : s.sh.joined = true → s.sh.ended = true ∧ s.destroyer ≠ none

section
variable {nf : Prop} {s s' : Shared} {u h u' h' : File → List Nat}

theorem Ok.mem_put {r : Role} {st : List Frame} (ho : Ok nf s u h r st) {f : File} {b it : Nat} {pc : Put} (hm : Frame.put f b it pc ∈ st) :
    PutOk s u h r f b it pc := by
  induction ho with
  | nil => cases hm
  | maker | user | loop | dtor => simp at hm
  | put r f b it pc k hb hp =>
    rcases List.mem_cons.1 hm with e | hm
    · cases e; exact hp
    · cases hb <;> simp at hm
  | writer r f b it pc k _ _ ih | cfgPut r w a pc f b it pc' k _ _ ih | add r f e pc k _ _ _ ih | cfgUser r w a pc k _ ih =>
    rcases List.mem_cons.1 hm with e | hm
    · cases e
    · exact ih hm

theorem Ok.other {r : Role} {st : List Frame} (ho : Ok nf s u h r st) (hl : locked st = false) (hfi : ∀ f ∈ s.files, f ∈ s'.files)
    (he : r = .logger → s'.ended = s.ended) (hd : r = .dtor → s.joined = false ∧ s'.joined = false ∧ s'.isLogging = s.isLogging)
    (hs : r = .logger → st = [] ∨ ∀ f, h' f = h f ∧ ∃ w, u' f = w ++ u f) : Ok nf s' u' h' r st := by
  have hj : ∀ sk rest, r = .dtor → ¬ RestOk nf s u h sk rest := by
    intro sk rest e hr
    have := hr.2.1
    rw [(hd e).1] at this
    cases this
  induction ho with
  | nil r h1 h2 => exact .nil r (fun e => by rw [he e]; exact h1 e) (fun e => (hj _ _ e (h2 e)).elim)
  | maker => exact .maker
  | user => exact .user
  | loop pc h1 h2 =>
    refine .loop pc (by rw [he rfl]; exact h1) ?_
    rcases hs rfl with e | hst
    · cases e
    cases pc <;> first | trivial | (cases hl; done) | skip
    exact ⟨hfi _ h2.1, by rw [(hst _).1]; exact h2.2⟩
  | dtor pc h1 =>
    refine .dtor pc ?_
    have h0 := hd rfl
    cases pc with
    | stop => exact h0.2.1
    | join => exact ⟨by rw [h0.2.2]; exact h1.1, h0.2.1⟩
    | list => exact (hj _ _ rfl h1).elim
    | scan rest => exact (hj _ _ rfl h1).elim
    | check f rest => exact (hj _ _ rfl h1).elim
    | begin f rest => exact (hj _ _ rfl h1.1).elim
  | put r f b it pc k hb hp =>
    cases hb with
    | dtor _ rest hr => exact (hj _ _ rfl hr).elim
    | loop _ h1 =>
      refine .put _ _ _ _ _ _ (.loop f (by rw [he rfl]; exact h1)) ?_
      rcases hs rfl with e | hs
      · cases e
      obtain ⟨hf, w, x, e1, e2, e3, e4⟩ := hp
      obtain ⟨eh, w', eu⟩ := hs f
      refine ⟨hfi _ hf, w' ++ w, x, by rw [eu, e1, List.append_assoc], by rw [eh]; exact e2, (fun e => by cases e), ?_⟩
      rw [eh]
      exact e4
  | writer r f b it pc k _ h1 ih =>
    exact .writer _ _ _ _ _ _ (ih rfl he hd (fun e => (hs e).imp (fun e => by cases e) id) hj) h1
  | add r f e pc k _ h1 h2 ih =>
    refine .add _ _ _ _ _ (ih rfl he hd (fun e => (hs e).imp (fun e => by cases e) id) hj) ?_ h2
    cases pc <;> first | trivial | (cases hl; done)
  | cfgUser r w a pc k _ ih =>
    exact .cfgUser _ _ _ _ _ (ih rfl he hd (fun e => (hs e).imp (fun e => by cases e) id) hj)
  | cfgPut r w a pc f b it pc' k _ h1 ih =>
    exact .cfgPut _ _ _ _ _ _ _ _ _ (ih rfl he hd (fun e => (hs e).imp (fun e => by cases e) id) hj) h1

/-- `Ok` does not depend on the mutexes. -/
theorem Ok.mutex {r : Role} {st : List Frame} (ho : Ok nf s u h r st) (lg cg : Option Nat) : Ok nf { s with log := lg, cfg := cg } u h r st := by
  induction ho with
  | nil r h1 h2 => exact .nil r h1 h2
  | maker => exact .maker
  | user => exact .user
  | loop pc h1 h2 => exact .loop pc h1 (by cases pc <;> exact h2)
  | dtor pc h1 => exact .dtor pc (by cases pc <;> exact h1)
  | put r f b it pc k hb hp =>
    refine .put _ _ _ _ _ _ ?_ hp
    cases hb with
    | loop _ h1 => exact .loop _ h1
    | dtor _ rest h1 => exact .dtor _ rest h1
  | writer r f b it pc k _ h1 ih => exact .writer _ _ _ _ _ _ ih h1
  | add r f e pc k _ h1 h2 ih => exact .add _ _ _ _ _ ih (by cases pc <;> exact h1) h2
  | cfgUser r w a pc k _ ih => exact .cfgUser _ _ _ _ _ ih
  | cfgPut r w a pc f b it pc' k _ h1 ih => exact .cfgPut _ _ _ _ _ _ _ _ _ ih h1
end

theorem go_bad {s s' : Shared} {i : Nat} {c : Choice} {st st' : List Frame} (hg : go s i c st = some (s', st')) : s'.bad = s.bad := by
  cases st with
  | nil => cases hg
  | cons fr k =>
    cases fr with
    | user =>
      unfold go at hg
      cases c <;> (cases hg; rfl)
    | maker => cases hg; rfl
    | add f e pc =>
      simp only [go] at hg
      cases pc <;> simp only [goAdd] at hg <;> first | (cases hg; rfl) | (split at hg <;> cases hg; rfl)
    | cfg w a pc =>
      simp only [go] at hg
      cases pc <;> simp only [goCfg] at hg <;> first | (cases hg; rfl) | (split at hg <;> cases hg; rfl)
    | loop pc =>
      simp only [go] at hg
      cases pc <;> simp only [goLoop] at hg <;> first | (cases hg; rfl) | (cases hg; done) | (split at hg <;> cases hg; rfl) | skip
      · cases c <;> simp only at hg <;> first | (cases hg; rfl) | (split at hg <;> cases hg; rfl)
    | put f b it pc =>
      simp only [go] at hg
      cases pc <;> simp only [goPut] at hg <;> (cases hg; rfl)
    | dtor pc =>
      simp only [go] at hg
      cases pc with
      | scan rest => cases rest <;> (simp only [goDtor] at hg; cases hg; rfl)
      | join => simp only [goDtor] at hg; split at hg <;> cases hg; rfl
      | stop | list | check | begin => simp only [goDtor] at hg; cases hg; rfl

/-- How the mutexes can change in a step of thread `i`. -/
def LockStep (i : Nat) (lg lg' : Option Nat) (l l' : Bool) : Prop :=
  (lg' = lg ∧ l' = l) ∨ (lg = none ∧ lg' = some i ∧ l' = true) ∨ (l = true ∧ lg' = none ∧ l' = false)

theorem lock_step {α : Type} {ts : List α} {p : α → Bool} {i : Nat} {t t' : α} {lg lg' : Option Nat} (hi : ts[i]? = some t)
    (hl : ∀ j, lg = some j ↔ ∃ t, ts[j]? = some t ∧ p t = true) (hs : LockStep i lg lg' (p t) (p t')) :
    ∀ j, lg' = some j ↔ ∃ t, (ts.set i t')[j]? = some t ∧ p t = true := by
  have hlt : i < ts.length := (List.getElem?_eq_some_iff.1 hi).1
  intro j
  by_cases hj : i = j
  · subst hj
    rw [List.getElem?_set_self hlt]
    have h1 := hl i
    rw [hi] at h1
    rcases hs with ⟨e1, e2⟩ | ⟨e1, e2, e3⟩ | ⟨e1, e2, e3⟩
    · rw [e1, h1]; simp [e2]
    · simp [e2, e3]
    · simp [e2, e3]
  · rw [List.getElem?_set_ne hj]
    rcases hs with ⟨e1, e2⟩ | ⟨e1, e2, e3⟩ | ⟨e1, e2, e3⟩
    · rw [e1]; exact hl j
    · have h1 := hl j
      rw [e1] at h1
      rw [e2, ← h1]
      simp [hj]
    · have h1 := hl j
      have h2 := (hl i).2 ⟨t, hi, e1⟩
      rw [h2] at h1
      rw [e2, ← h1]
      simp [hj]

section
variable {nf : Prop} {s : State} {u h u' h' : File → List Nat} {i : Nat} {st st' : List Frame} {sh : Shared}

/-- The state after a step of thread `i`. -/
def after (s : State) (i : Nat) (sh : Shared) (st' : List Frame) : State := { s with sh := sh, threads := s.threads.set i st' }

theorem Inv.update (I : Inv nf s u h) (hi : s.threads[i]? = some st) (hne : st ≠ []) (hglob : Glob sh u' h')
    (hheap : ∀ f ∈ sh.files, Seg (vnext (hf (after s i sh st')) f (sh.next f)) (vprev (hf (after s i sh st')) f (sh.prev f)) 0 (u' f ++ h' f) 0)
    (hok : Ok nf sh u' h' (role s i) st')
    (hoth : ∀ j t, j ≠ i → s.threads[j]? = some t → Ok nf s.sh u h (role s j) t → Ok nf sh u' h' (role s j) t)
    (hlk : LockStep i s.sh.log sh.log (locked st) (locked st')) (hck : LockStep i s.sh.cfg sh.cfg (cfgLocked st) (cfgLocked st'))
    (hidle : sh.joined = false → ∀ f, h' f ≠ [] → ∃ t, (s.threads.set i st')[1]? = some t ∧ cur t = some f)
    (hpend : ∀ (f : File) (n : Nat), pending (hf (after s i sh st')) = some (f, n) → ∀ (j : Nat) (t : List Frame) (b it : Nat) (pc : Put),
      (s.threads.set i st')[j]? = some t → Frame.put f b it pc ∈ t → b ≠ n)
    (hjoin : sh.joined = true → sh.ended = true ∧ s.destroyer ≠ none) : Inv nf (after s i sh st') u' h' := by
  have hlt : i < s.threads.length := (List.getElem?_eq_some_iff.1 hi).1
  refine ⟨hglob, hheap, ?_, lock_step hi I.lock hlk, lock_step hi I.cfg hck, hidle, hpend, ?_, ?_, hjoin⟩
  · intro j t ht
    show Ok nf sh u' h' (role s j) t
    have ht : (s.threads.set i st')[j]? = some t := ht
    by_cases hj : i = j
    · subst hj
      rw [List.getElem?_set_self hlt] at ht
      cases ht
      exact hok
    · rw [List.getElem?_set_ne hj] at ht
      exact hoth j t (fun e => hj e.symm) ht (I.thr j t ht)
  · intro d hd
    obtain ⟨h1, h2, h3⟩ := I.fin d hd
    refine ⟨h1, by show d < (s.threads.set i st').length; rw [List.length_set]; exact h2, ?_⟩
    intro j t ht h4 h5
    have ht : (s.threads.set i st')[j]? = some t := ht
    by_cases hj : i = j
    · subst hj
      exact (hne (h3 i st hi h4 h5)).elim
    · rw [List.getElem?_set_ne hj] at ht
      exact h3 j t ht h4 h5
  · show 2 ≤ (s.threads.set i st').length
    rw [List.length_set]
    exact I.len

/-- The function is in the middle of changing links. -/
def mid : Option Frame → Bool
  | some (.add _ _ (.hook1 _ _ _)) | some (.add _ _ (.hook2 _ _)) | some (.loop (.unhook2 _ _ _ _)) => true
  | _ => false

theorem mid_next {fr : Option Frame} (hm : mid fr = false) (f : File) (g : Nat → Nat) : vnext fr f g = g := by
  unfold vnext
  split
  · cases hm
  · rfl

theorem mid_prev {fr : Option Frame} (hm : mid fr = false) (f : File) (g : Nat → Nat) : vprev fr f g = g := by
  unfold vprev
  split
  · cases hm
  · cases hm
  · cases hm
  · rfl

theorem mid_pending {fr : Option Frame} (hm : mid fr = false) : pending fr = none := by
  unfold pending
  split
  · cases hm
  · cases hm
  · rfl

theorem hf_self (hi : s.threads[i]? = some st) (hl : s.sh.log = some i) : hf s = st.head? := by
  unfold hf
  rw [hl]
  simp only [hi, Option.bind_some]

theorem hf_after_self (hi : s.threads[i]? = some st) (hl : sh.log = some i) : hf (after s i sh st') = st'.head? := by
  have hlt : i < s.threads.length := (List.getElem?_eq_some_iff.1 hi).1
  refine hf_self (s := after s i sh st') ?_ hl
  show (s.threads.set i st')[i]? = _
  rw [List.getElem?_set_self hlt]

theorem hf_after_other (hl : sh.log = s.sh.log) (hne : s.sh.log ≠ some i) : hf (after s i sh st') = hf s := by
  unfold hf after
  simp only [hl]
  cases e : s.sh.log with
  | none => rfl
  | some j =>
    have : i ≠ j := fun e' => hne (by rw [e, e'])
    simp only [List.getElem?_set_ne this]

theorem Inv.not_locked (I : Inv nf s u h) (hi : s.threads[i]? = some st) (hl : locked st = false) : s.sh.log ≠ some i := by
  intro e
  obtain ⟨t, ht, hl'⟩ := (I.lock i).1 e
  rw [hi] at ht
  cases ht
  rw [hl] at hl'
  cases hl'

theorem hf_step (I : Inv nf s u h) (hi : s.threads[i]? = some st) (hlk : LockStep i s.sh.log sh.log (locked st) (locked st'))
    (m1 : mid st.head? = false) (m2 : mid st'.head? = false) :
    hf (after s i sh st') = hf s ∨ (mid (hf (after s i sh st')) = false ∧ mid (hf s) = false) := by
  rcases hlk with ⟨e1, e2⟩ | ⟨e1, e2, e3⟩ | ⟨e1, e2, e3⟩
  · by_cases hl : s.sh.log = some i
    · right
      rw [hf_after_self hi (by rw [e1]; exact hl), hf_self hi hl]
      exact ⟨m2, m1⟩
    · left
      exact hf_after_other e1 hl
  · right
    rw [hf_after_self hi e2]
    refine ⟨m2, ?_⟩
    unfold hf
    rw [e1]
    rfl
  · right
    rw [hf_self hi ((I.lock i).2 ⟨st, hi, e1⟩)]
    refine ⟨?_, m1⟩
    unfold hf after
    simp only [e2]
    rfl

/-- Steps that do not change the memory. -/
theorem Inv.control (I : Inv nf s u h) (hi : s.threads[i]? = some st) (hne : st ≠ []) {lg cg : Option Nat}
    (hok : Ok nf s.sh u h (role s i) st')
    (hlk : LockStep i s.sh.log lg (locked st) (locked st')) (hck : LockStep i s.sh.cfg cg (cfgLocked st) (cfgLocked st'))
    (m1 : mid st.head? = false) (m2 : mid st'.head? = false)
    (hcur : i = 1 → ∀ f, h f ≠ [] → cur st = some f → cur st' = some f)
    (hput : lg = none ∨ ∀ f b it pc, Frame.put f b it pc ∈ st' → ∃ it pc, Frame.put f b it pc ∈ st) :
    Inv nf (after s i { s.sh with log := lg, cfg := cg } st') u h := by
  have hlt : i < s.threads.length := (List.getElem?_eq_some_iff.1 hi).1
  have hh := hf_step (sh := { s.sh with log := lg, cfg := cg }) I hi hlk m1 m2
  refine I.update hi hne ⟨I.glob.bad, I.glob.fresh, I.glob.files, I.glob.node, I.glob.val, I.glob.nodup, I.glob.none, I.glob.hist⟩ ?_
    (hok.mutex _ _) (fun j t _ _ ho => ho.mutex _ _) hlk hck ?_ ?_ I.joined
  · intro f hfi
    have h0 := I.heap f hfi
    rcases hh with e | ⟨e1, e2⟩
    · rw [e]; exact h0
    · rw [mid_next e2, mid_prev e2] at h0
      rw [mid_next e1, mid_prev e1]
      exact h0
  · intro hj f hf
    obtain ⟨t, ht, hc⟩ := I.idle hj f hf
    by_cases e : i = 1
    · subst e
      rw [List.getElem?_set_self hlt]
      rw [hi] at ht
      cases ht
      exact ⟨st', rfl, hcur rfl f hf hc⟩
    · rw [List.getElem?_set_ne e]
      exact ⟨t, ht, hc⟩
  · intro f n hp j t b it pc ht hm
    rcases hh with e | ⟨e1, _⟩
    · rw [e] at hp
      by_cases hj : i = j
      · subst hj
        rw [List.getElem?_set_self hlt] at ht
        cases ht
        rcases hput with e' | hput
        · have : hf (after s i { s.sh with log := lg, cfg := cg } st') = none := by unfold hf after; simp only [e']
          rw [← e, this] at hp
          cases hp
        · obtain ⟨it', pc', hm'⟩ := hput f b it pc hm
          exact I.pend f n hp i st b it' pc' hi hm'
      · rw [List.getElem?_set_ne hj] at ht
        exact I.pend f n hp j t b it pc ht hm
    · rw [mid_pending e1] at hp
      cases hp

end

section
variable {nf : Prop} {s s' : Shared} {u h u' h' : File → List Nat}

theorem Ok.logger_ended {st : List Frame} (ho : Ok nf s u h .logger st) (hne : st ≠ []) : s.ended = false := by
  generalize hr : Role.logger = r at ho
  induction ho with
  | nil => exact (hne rfl).elim
  | maker | user | dtor => cases hr
  | loop pc h1 => exact h1
  | put r f b it pc k hb =>
    cases hb with
    | loop _ h1 => exact h1
    | dtor => cases hr
  | writer r f b it pc k _ _ ih | add r f e pc k _ _ _ ih | cfgUser r w a pc k _ ih | cfgPut r w a pc f b it pc' k _ _ ih =>
    exact ih (by simp) hr

theorem Ok.dtor_rest {st : List Frame} (ho : Ok nf s u h .dtor st) (hst : ∀ pc, st ≠ [.dtor pc]) : s.isLogging = false ∧ s.joined = true := by
  generalize hr : Role.dtor = r at ho
  induction ho with
  | nil r _ h2 => exact ⟨(h2 hr.symm).1, (h2 hr.symm).2.1⟩
  | maker | user | loop => cases hr
  | dtor pc => exact (hst pc rfl).elim
  | put r f b it pc k hb =>
    cases hb with
    | loop => cases hr
    | dtor _ _ h1 => exact ⟨h1.1, h1.2.1⟩
  | writer r f b it pc k _ _ ih | add r f e pc k _ _ _ ih | cfgUser r w a pc k _ ih | cfgPut r w a pc f b it pc' k _ _ ih =>
    exact ih (by simp) hr

theorem Ok.dtor_unlocked {st : List Frame} (ho : Ok nf s u h .dtor st) : locked st = false := by
  generalize hr : Role.dtor = r at ho
  cases ho with
  | loop => cases hr
  | add r f e pc k h1 h2 h3 => rw [h3 hr.symm]; rfl
  | _ => rfl

/-- Steps that do not change the buffers. -/
theorem Ok.same {r : Role} {st : List Frame} (ho : Ok nf s u h r st) (hd : r ≠ .dtor) (h1 : s'.files = s.files) (h2 : s'.fresh = s.fresh)
    (h3 : s'.val = s.val) (h4 : s'.ended = s.ended) (hq : ∀ f, u' f ++ h' f = u f ++ h f) (hl : r = .logger → u' = u ∧ h' = h) :
    Ok nf s' u' h' r st := by
  induction ho with
  | nil r h5 h6 => exact .nil r (by rw [h4]; exact h5) (fun e => (hd e).elim)
  | maker => exact .maker
  | user => exact .user
  | loop pc h5 h6 =>
    obtain ⟨e1, e2⟩ := hl rfl
    subst e1 e2
    refine .loop pc (by rw [h4]; exact h5) ?_
    cases pc <;> simp only [LoopOk, h1, h3] at h6 ⊢ <;> exact h6
  | dtor => exact (hd rfl).elim
  | put r f b it pc k hb hp =>
    cases hb with
    | dtor => exact (hd rfl).elim
    | loop _ h5 =>
      obtain ⟨e1, e2⟩ := hl rfl
      subst e1 e2
      refine .put _ _ _ _ _ _ (.loop f (by rw [h4]; exact h5)) ?_
      unfold PutOk at hp ⊢
      rw [h1]
      exact hp
  | writer r f b it pc k _ h5 ih => exact .writer _ _ _ _ _ _ (ih hd hl) h5
  | add r f e pc k _ h5 h6 ih =>
    refine .add _ _ _ _ _ (ih hd hl) ?_ h6
    cases pc <;> simp only [AddOk, h1, h2, h3, hq] at h5 ⊢ <;> exact h5
  | cfgUser r w a pc k _ ih => exact .cfgUser _ _ _ _ _ (ih hd hl)
  | cfgPut r w a pc f b it pc' k _ h5 ih => exact .cfgPut _ _ _ _ _ _ _ _ _ (ih hd hl) h5
end

theorem cur_cons (a b : Frame) (k : List Frame) : cur (a :: b :: k) = cur (b :: k) := by
  unfold cur
  rw [List.getLast?_cons_cons]

section
variable {nf : Prop} {s : State} {u h u' h' : File → List Nat} {i : Nat} {st st' : List Frame} {sh : Shared} {r : Role}

theorem role_logger {j : Nat} (hr : role s j = .logger) : j = 1 := by
  unfold role at hr
  split at hr
  · cases hr
  split at hr
  · assumption
  split at hr <;> cases hr

theorem role_dtor {j : Nat} (hr : role s j = .dtor) : s.destroyer = some j := by
  unfold role at hr
  split at hr
  · cases hr
  split at hr
  · cases hr
  split at hr
  · assumption
  · cases hr

theorem Inv.role_of_dtor (I : Inv nf s u h) {d : Nat} (hd : s.destroyer = some d) : role s d = .dtor := by
  have h1 := (I.fin d hd).1
  unfold role
  rw [if_neg (by omega), if_neg (by omega), if_pos hd]

theorem Inv.active (I : Inv nf s u h) (hi : s.threads[i]? = some st) (hne : st ≠ []) (hj : s.sh.joined = true) : role s i = .dtor := by
  obtain ⟨he, hd⟩ := I.joined hj
  obtain ⟨d, hd⟩ := Option.ne_none_iff_exists'.1 hd
  by_cases e : i = d
  · rw [e]; exact I.role_of_dtor hd
  · by_cases e1 : i = 1
    · subst e1
      have := I.thr 1 st hi
      have hr : role s 1 = .logger := rfl
      rw [hr] at this
      have := this.logger_ended hne
      rw [he] at this
      cases this
    · exact (hne ((I.fin d hd).2.2 i st hi e1 e)).elim

theorem Inv.unjoined (I : Inv nf s u h) (hi : s.threads[i]? = some st) (hne : st ≠ []) (hr : role s i ≠ .dtor) : s.sh.joined = false := by
  cases e : s.sh.joined with
  | false => rfl
  | true => exact (hr (I.active hi hne e)).elim

theorem Inv.other_unlocked (I : Inv nf s u h) (hi : s.threads[i]? = some st) (hl : locked st = true) {j : Nat} {t : List Frame} (hj : j ≠ i)
    (ht : s.threads[j]? = some t) : locked t = false := by
  cases e : locked t with
  | false => rfl
  | true =>
    have h1 := (I.lock i).2 ⟨st, hi, hl⟩
    have h2 := (I.lock j).2 ⟨t, ht, e⟩
    rw [h1] at h2
    cases h2
    exact (hj rfl).elim

/-- While the mutex is held by a function that is not in the middle of changing links. -/
theorem Inv.real (I : Inv nf s u h) (hi : s.threads[i]? = some st) (hl : locked st = true) (hm : mid st.head? = false) {f : File}
    (hf' : f ∈ s.sh.files) : Seg (s.sh.next f) (s.sh.prev f) 0 (u f ++ h f) 0 := by
  have h0 := I.heap f hf'
  rw [hf_self hi ((I.lock i).2 ⟨st, hi, hl⟩), mid_next hm, mid_prev hm] at h0
  exact h0

/-- Others are not affected by a thread that holds the mutex. -/
theorem Inv.others (I : Inv nf s u h) (hi : s.threads[i]? = some st) (hne : st ≠ []) (hr : role s i ≠ .dtor) (hl : locked st = true)
    (h1 : ∀ f ∈ s.sh.files, f ∈ sh.files) (h2 : sh.ended = s.sh.ended ∨ i = 1) (h3 : sh.joined = s.sh.joined) (h4 : sh.isLogging = s.sh.isLogging)
    (h5 : i = 1 ∨ ∀ f, h' f = h f ∧ ∃ w, u' f = w ++ u f) :
    ∀ j t, j ≠ i → s.threads[j]? = some t → Ok nf s.sh u h (role s j) t → Ok nf sh u' h' (role s j) t := by
  intro j t hj ht ho
  have hjf := I.unjoined hi hne hr
  refine ho.other (I.other_unlocked hi hl hj ht) h1 ?_ (fun _ => ⟨hjf, by rw [h3]; exact hjf, h4⟩) ?_
  · intro e
    rcases h2 with e' | e'
    · exact e'
    · exact (hj ((role_logger e).trans e'.symm)).elim
  · intro e
    rcases h5 with e' | e'
    · exact (hj ((role_logger e).trans e'.symm)).elim
    · exact .inr e'

theorem Inv.idle_set (I : Inv nf s u h) (hi : s.threads[i]? = some st) (hcur : i = 1 → ∀ f, h f ≠ [] → cur st = some f → cur st' = some f)
    (hj : s.sh.joined = false) : ∀ f, h f ≠ [] → ∃ t, (s.threads.set i st')[1]? = some t ∧ cur t = some f := by
  have hlt : i < s.threads.length := (List.getElem?_eq_some_iff.1 hi).1
  intro f hf
  obtain ⟨t, ht, hc⟩ := I.idle hj f hf
  by_cases e : i = 1
  · subst e
    rw [List.getElem?_set_self hlt]
    rw [hi] at ht
    cases ht
    exact ⟨st', rfl, hcur rfl f hf hc⟩
  · rw [List.getElem?_set_ne e]
    exact ⟨t, ht, hc⟩

theorem Inv.step_user (I : Inv nf s u h) {k : List Frame} {c : Choice} (hi : s.threads[i]? = some (.user :: k))
    (hg : go s.sh i c (.user :: k) = some (sh, st')) : Inv nf (after s i sh st') u h := by
  have ho := I.thr i _ hi
  generalize hr : role s i = r at ho
  have key : Ok nf s.sh u h r k ∧ locked k = false ∧ cfgLocked k = false ∧ mid k.head? = false ∧ (k = [] ∨ ∃ b l, k = b :: l) := by
    cases ho with
    | user => exact ⟨.nil _ (fun e => by cases e) (fun e => by cases e), rfl, rfl, rfl, .inl rfl⟩
    | writer r f b it pc k h1 h2 => exact ⟨h1, rfl, rfl, rfl, .inr ⟨_, _, rfl⟩⟩
  have hret : Inv nf (after s i s.sh k) u h := by
    refine I.control (lg := s.sh.log) (cg := s.sh.cfg) hi (by simp) (by rw [hr]; exact key.1) (.inl ⟨rfl, key.2.1⟩) (.inl ⟨rfl, key.2.2.1⟩) rfl
      key.2.2.2.1 ?_ (.inr fun f b it pc hm => ⟨it, pc, List.mem_cons_of_mem _ hm⟩)
    intro _ f _ hc
    rcases key.2.2.2.2 with e | ⟨b, l, e⟩
    · rw [e] at hc; cases hc
    · rw [e, cur_cons] at hc; rw [e]; exact hc
  cases c with
  | call fn =>
    simp only [go] at hg
    cases hg
    refine I.control (lg := s.sh.log) (cg := s.sh.cfg) hi (by simp) ?_ (.inl ⟨rfl, by cases fn <;> rfl⟩) (.inl ⟨rfl, by cases fn <;> rfl⟩) rfl
      (by cases fn <;> rfl) (fun _ f _ hc => by rw [cur_cons]; exact hc) (.inr fun f b it pc hm => ⟨it, pc, ?_⟩)
    · rw [hr]
      cases fn with
      | log f e => exact .add _ _ _ _ _ ho trivial (fun _ => rfl)
      | copy w => exact .cfgUser _ _ _ _ _ ho
      | assign w => exact .cfgUser _ _ _ _ _ ho
    · rcases List.mem_cons.1 hm with e | hm
      · cases fn <;> cases e
      · exact hm
  | go | alt | fail | file f => simp only [go] at hg; cases hg; exact hret

theorem Inv.step_maker (I : Inv nf s u h) {k : List Frame} {c : Choice} (hi : s.threads[i]? = some (.maker :: k))
    (hg : go s.sh i c (.maker :: k) = some (sh, st')) : Inv nf (after s i sh st') u h := by
  have ho := I.thr i _ hi
  generalize hr : role s i = r at ho
  cases hg
  cases ho with
  | maker =>
    refine I.control (lg := s.sh.log) (cg := s.sh.cfg) hi (by simp) ?_ (.inl ⟨rfl, rfl⟩) (.inl ⟨rfl, rfl⟩) rfl
      rfl (fun _ f _ hc => by cases hc) (.inr fun f b it pc hm => by cases hm)
    rw [hr]
    exact .nil _ (fun e => by cases e) (fun e => by cases e)

theorem Inv.step_cfg (I : Inv nf s u h) {k : List Frame} {c : Choice} {w : Writer} {a : Bool} {pc : Cfg}
    (hi : s.threads[i]? = some (.cfg w a pc :: k))
    (hg : go s.sh i c (.cfg w a pc :: k) = some (sh, st')) : Inv nf (after s i sh st') u h := by
  have ho := I.thr i _ hi
  generalize hr : role s i = r at ho
  have key : Ok nf s.sh u h r k ∧ (∀ pc', Ok nf s.sh u h r (.cfg w a pc' :: k)) ∧ locked k = false ∧ cfgLocked k = false ∧ mid k.head? = false ∧
      ∃ b l, k = b :: l := by
    cases ho with
    | cfgUser r w a pc k h1 => exact ⟨h1, fun pc' => .cfgUser _ _ _ _ _ h1, rfl, rfl, rfl, _, _, rfl⟩
    | cfgPut r w a pc f b it pc' k h1 h2 => exact ⟨h1, fun pc' => .cfgPut _ _ _ _ _ _ _ _ _ h1 h2, rfl, rfl, rfl, _, _, rfl⟩
  obtain ⟨k1, k2, k3, k4, k5, b, l, e⟩ := key
  have hmem : ∀ pc', ∀ f b it p, Frame.put f b it p ∈ (.cfg w a pc' :: k) → ∃ it p, Frame.put f b it p ∈ (Frame.cfg w a pc :: k) := by
    intro pc' f b it p hm
    rcases List.mem_cons.1 hm with e | hm
    · cases e
    · exact ⟨it, p, List.mem_cons_of_mem _ hm⟩
  cases pc with
  | lock =>
    simp only [go, goCfg] at hg
    split at hg
    · rename_i hn
      cases hg
      exact I.control (lg := s.sh.log) (cg := some i) hi (by simp) (by rw [hr]; exact k2 _) (.inl ⟨rfl, rfl⟩) (.inr (.inl ⟨hn, rfl, rfl⟩)) rfl rfl
        (fun _ f _ hc => by rw [e, cur_cons] at hc ⊢; exact hc) (.inr (hmem _))
    · cases hg
  | use =>
    cases hg
    exact I.control (lg := s.sh.log) (cg := s.sh.cfg) hi (by simp) (by rw [hr]; exact k2 _) (.inl ⟨rfl, rfl⟩) (.inl ⟨rfl, rfl⟩) rfl rfl
        (fun _ f _ hc => by rw [e, cur_cons] at hc ⊢; exact hc) (.inr (hmem _))
  | unlock =>
    cases hg
    exact I.control (lg := s.sh.log) (cg := none) hi (by simp) (by rw [hr]; exact k1) (.inl ⟨rfl, k3⟩) (.inr (.inr ⟨rfl, rfl, k4⟩)) rfl k5
        (fun _ f _ hc => by rw [e, cur_cons] at hc; rw [e]; exact hc) (.inr fun f b it pc hm => ⟨it, pc, List.mem_cons_of_mem _ hm⟩)
end

end Pluto.LogRace
