import Verif.Proofs.LogRotate
import Verif.Model.LogWhole
import Verif.Spec.LogWhole
import Verif.Proofs.LogBytes
import Verif.Proofs.LogEnd
import Verif.Proofs.LogRead

/-! # A logger from its construction to its destruction (C130) -/

namespace Pluto.Log
open Pluto.Spec.Log

/-- The entries of a log file that are in a buffer or were in one, and then those of calls in progress. -/
def taken (s : State) (name : Nat) : List Entry :=
  accepted s name ++ s.calls.filterMap fun r => if r.name = name then some r.entry else none

theorem saidBy_append (tid : Nat) (a b : List Entry) : saidBy tid (a ++ b) = saidBy tid a ++ saidBy tid b := by
  simp [saidBy]

theorem said_append (l : Int) (name tid : Nat) (a b : List Event) :
    said l name tid (a ++ b) = said l name tid a ++ said l name tid b := by
  induction a with
  | nil => rfl
  | cons ev a ih =>
    cases ev with
    | call t n time level message =>
      simp only [List.cons_append, said]
      split <;> simp [ih]
    | _ => exact ih

/-- A call in progress leaves the list. -/
theorem saidBy_erase {calls : List Request} {i : Nat} {r : Request} (hi : calls[i]? = some r)
    (hn : (calls.map (·.entry.tid)).Nodup) (name tid : Nat) :
    saidBy tid (calls.filterMap fun r => if r.name = name then some r.entry else none) =
      saidBy tid (if r.name = name then [r.entry] else []) ++
        saidBy tid ((calls.eraseIdx i).filterMap fun r => if r.name = name then some r.entry else none) := by
  induction calls generalizing i with
  | nil => simp at hi
  | cons c calls ih =>
    rw [List.map_cons, List.nodup_cons] at hn
    cases i with
    | zero =>
      simp only [List.getElem?_cons_zero, Option.some.injEq] at hi
      subst hi
      by_cases h : c.name = name <;> simp [h, saidBy, List.filter_cons]
      split <;> simp
    | succ i =>
      simp only [List.getElem?_cons_succ] at hi
      have hm : r.entry.tid ∈ calls.map (·.entry.tid) := List.mem_map.2 ⟨r, List.mem_of_getElem? hi, rfl⟩
      have hne : c.entry.tid ≠ r.entry.tid := fun h => hn.1 (h ▸ hm)
      have h1 := ih hi hn.2
      rw [List.eraseIdx_cons_succ]
      have hc : ∀ (l : List Request),
          saidBy tid ((c :: l).filterMap fun r => if r.name = name then some r.entry else none) =
          saidBy tid (if c.name = name then [c.entry] else []) ++
            saidBy tid (l.filterMap fun r => if r.name = name then some r.entry else none) := by
        intro l
        rw [← saidBy_append]
        congr 1
        by_cases h : c.name = name <;> simp [h]
      rw [hc, hc, h1, ← List.append_assoc, ← List.append_assoc]
      congr 1
      by_cases h : c.name = name <;> by_cases h' : r.name = name <;> by_cases ht : c.entry.tid = tid <;>
        by_cases ht' : r.entry.tid = tid <;> simp [saidBy, h, h', ht, ht']
      exact absurd (ht.trans ht'.symm) hne

/-- A step takes what the calls say. -/
theorem taken_step {paths : Nat → Path} {σ : Settings} {fs : Fs} {s s' : State} {ev : Event} (h : Reachable paths σ fs s)
    (hs : step paths s ev = some s') (hm : s.settings.bufferMaxSize = 0) (name tid : Nat) :
    saidBy tid (taken s' name) = saidBy tid (taken s name) ++ said s.settings.level name tid [ev] := by
  have hlog : s.stage = .alive → s.isLogging = true := by
    intro hst
    rcases closing h with ⟨-, h1⟩ | ⟨h1, -⟩
    · exact h1
    · exact absurd hst h1
  have same : ∀ {s' : State}, s'.calls = s.calls → s'.accepted = s.accepted →
      saidBy tid (taken s' name) = saidBy tid (taken s name) ++ [] := by
    intro s' h1 h2
    unfold taken accepted
    rw [h1, h2, List.append_nil]
  obtain ⟨-, hs⟩ := step_cases hs
  cases hs with
  | call t n time level message hst hc hn ho hl =>
    have hle : s.settings.level ≤ level := by
      simp only [shouldLog, Bool.and_eq_true, decide_eq_true_eq] at hl
      exact hl.2
    unfold taken
    rw [show accepted { s with
      calls := s.calls ++ [⟨n, ⟨time, t, level, message, s.nextId⟩⟩], nextId := s.nextId + 1 } name =
        accepted s name from rfl]
    simp only [List.filterMap_append, saidBy_append, List.append_assoc]
    congr 2
    by_cases h1 : n = name <;> by_cases h2 : t = tid <;> simp [said, saidBy, h1, h2, hle]
  | callFiltered t n time level message hst hl =>
    have hle : ¬ s.settings.level ≤ level := fun hle => by simp [shouldLog, hlog hst, hle] at hl
    simp [said, hle]
  | enter i r hi ho =>
    rcases addLog_cases s r with ⟨heq, -⟩ | ⟨-, h1, -⟩
    · have he := saidBy_erase hi (threads h).single name tid
      unfold taken accepted
      rw [heq]
      simp only [List.filterMap_append, saidBy_append, said, List.append_nil]
      rw [he]
      by_cases hr : r.name = name <;> simp [hr, saidBy]
    · omega
  | flush io ios last name' f hs hn =>
    exact same (flushFile_same paths s io ios name' f).1 (flushFile_same paths s io ios name' f).2.1
  | _ => exact same rfl rfl

/-- An execution takes what the calls say. -/
theorem taken_run {paths : Nat → Path} {σ : Settings} {fs : Fs} {evs : List Event} {s₀ s : State}
    (h : Reachable paths σ fs s₀) (hr : run paths s₀ evs = some s) (hc : ∀ ev ∈ evs, Calm ev)
    (hm : s₀.settings.bufferMaxSize = 0) (name tid : Nat) :
    saidBy tid (taken s name) = saidBy tid (taken s₀ name) ++ said s₀.settings.level name tid evs := by
  induction evs generalizing s₀ with
  | nil => cases hr; simp [said]
  | cons ev evs ih =>
    simp only [run] at hr
    cases hs : step paths s₀ ev with
    | none => rw [hs] at hr; cases hr
    | some s₁ =>
      rw [hs] at hr
      have hset : s₁.settings = s₀.settings := by
        rw [settings_step hs]
        have := hc ev List.mem_cons_self
        cases ev with
        | set x => exact this.elim
        | _ => rfl
      rw [ih (.step ev h hs) hr (fun e he => hc e (List.mem_cons_of_mem _ he)) (by rw [hset]; exact hm), hset,
        taken_step h hs hm, List.append_assoc, ← said_append]
      rfl

/-- Without rotation, what was in a file stays there, and files that are no log files do not change. -/
theorem former_kept {paths : Nat → Path} {okIo : Io → Prop} {fs : Fs} {s : State} (h0 : okIo {})
    (hfs : Fresh fs) (h : Reaches paths (·.fileRotationSize = 0) okIo fs s) :
    (∀ q, former ((read s.fs q).getD []) = (read fs q).getD []) ∧
      ∀ q, (∀ n, q ≠ paths n) → read s.fs q = read fs q := by
  refine (disk_invariant (okIo := okIo) (I := fun fs' _ => (∀ q, former ((read fs' q).getD []) = (read fs q).getD []) ∧
      ∀ q, (∀ n, q ≠ paths n) → read fs' q = read fs q)
    (J := fun l => l.fileRotationSize = 0) h0 ?_ (fun _ h => h) ?_ ?_ h).1
  · intro σ m fs₁ fs₂ ps _ ho hI
    refine ⟨fun q => ?_, fun q hq => by rw [ho.2.1 q (hq m)]; exact hI.2 q hq⟩
    rw [← hI.1 q]
    by_cases hq : q = paths m
    · subst hq
      rcases ho.2.2 with h1 | ⟨h1, h2⟩
      · rw [h1]
      · rw [h1, h2]; rfl
    · rw [ho.2.1 q hq]
  · intro σ m io l e fs₁ ps _ _ hl hI
    have hput : ∀ {k : Kind} {text bad good fs₁ fs₂ r}, k ≠ .old → put (paths m) k text bad good fs₁ = (fs₂, r) →
        ((∀ q, former ((read fs₁ q).getD []) = (read fs q).getD []) ∧
          ∀ q, (∀ n, q ≠ paths n) → read fs₁ q = read fs q) →
        (∀ q, former ((read fs₂ q).getD []) = (read fs q).getD []) ∧
          ∀ q, (∀ n, q ≠ paths n) → read fs₂ q = read fs q := by
      intro k text bad good fs₁ fs₂ r hk hp hI
      have hst : ∀ x : Chunk, x.kind ≠ .old → fs₂ = store fs₁ (paths m) ((read fs₁ (paths m)).getD [] ++ [x]) →
          (∀ q, former ((read fs₂ q).getD []) = (read fs q).getD []) ∧
          ∀ q, (∀ n, q ≠ paths n) → read fs₂ q = read fs q := by
        rintro x hx rfl
        refine ⟨fun q => ?_, fun q hq => by rw [read_store_other _ _ (hq m)]; exact hI.2 q hq⟩
        rw [← hI.1 q]
        by_cases hq : q = paths m
        · subst hq
          rw [read_store_self]
          simp [former, hx]
        · rw [read_store_other _ _ hq]
      rcases put_cases hp with ⟨-, rfl, rfl⟩ | ⟨-, -, -, h2⟩ | ⟨-, -, n, -, h2⟩
      · exact hI
      · exact hst _ hk h2
      · exact hst _ (by simp) h2
    have hentry : ∀ (l : Locals) fs₁, l.fileRotationSize = 0 →
        ((∀ q, former ((read fs₁ q).getD []) = (read fs q).getD []) ∧
          ∀ q, (∀ n, q ≠ paths n) → read fs₁ q = read fs q) →
        After (fun fs' _ => (∀ q, former ((read fs' q).getD []) = (read fs q).getD []) ∧
          ∀ q, (∀ n, q ≠ paths n) → read fs' q = read fs q) (·.fileRotationSize = 0) m e ps
          (turnEntry σ io (paths m) l m e fs₁) := by
      intro l fs₁ hl hI
      rcases turnEntry_cases σ io (paths m) l m e fs₁ with ⟨text, fs₂, b, hw, hp, heq⟩ |
        ⟨text', fs₂, b, hw, hp, heq⟩ | heq <;> rw [heq]
      · exact ⟨hput (by simp) hp hI, hl⟩
      · exact hput (by simp) hp hI
      · trivial
    rcases turn_cases σ io (paths m) l m e fs₁ with ⟨hno, ht⟩ | ⟨h1, -, -⟩
    · rw [ht]
      rcases turnHeader_cases σ io (paths m) l _ m e fs₁ with ⟨-, heq⟩ | ⟨text, fs₂, b, -, hk, hw, hp, heq⟩ |
        ⟨text, fs₂, b, -, hk, hw, hp, heq⟩ | ⟨-, -, -, heq⟩ <;> rw [heq]
      · exact hentry l fs₁ hl hI
      · exact hentry _ _ hl (hput (by simp) hp hI)
      · exact hput (by simp) hp hI
      · trivial
    · exact absurd hl h1
  · refine ⟨fun q => ?_, fun _ _ => rfl⟩
    cases hr : read fs q with
    | none => rfl
    | some c =>
      simp only [Option.getD_some, former]
      rw [List.filter_eq_self]
      intro x hx
      simpa using hfs q c hr x hx

/-- If there was no text in the files of a log file, also the rotated ones, there is none from before later. -/
theorem former_none {paths : Nat → Path} {okσ : Settings → Prop} {okIo : Io → Prop} {fs : Fs} {s : State} (h0 : okIo {})
    (hsep : Distinct paths) (h : Reaches paths okσ okIo fs s) {name : Nat}
    (hnew : ∀ i, bytes (former ((read fs (pathAt (paths name) i)).getD [])) = []) (i : Nat) :
    bytes (former ((read s.fs (pathAt (paths name) i)).getD [])) = [] := by
  refine (disk_invariant (okσ := okσ) (okIo := okIo)
    (I := fun fs' _ => ∀ i, bytes (former ((read fs' (pathAt (paths name) i)).getD [])) = [])
    (J := fun _ => True) h0 ?_ (fun _ _ => trivial) ?_ hnew h).1 i
  · intro σ m fs₁ fs₂ ps _ ho hI i
    by_cases hq : pathAt (paths name) i = paths m
    · rcases ho.2.2 with h1 | ⟨h1, h2⟩
      · rw [hq, h1, ← hq]; exact hI i
      · rw [hq, h2]; rfl
    · rw [ho.2.1 _ hq]; exact hI i
  · intro σ m io l e fs₁ ps _ _ _ hI
    let I : Fs → Prop := fun fs' => ∀ i, bytes (former ((read fs' (pathAt (paths name) i)).getD [])) = []
    have hopen : ∀ {fs₁ fs₂}, Opened (paths m) fs₁ fs₂ → I fs₁ → I fs₂ := by
      intro fs₁ fs₂ ho hI i
      by_cases hq : pathAt (paths name) i = paths m
      · rcases ho.2.2 with h1 | ⟨h1, h2⟩
        · rw [hq, h1, ← hq]; exact hI i
        · rw [hq, h2]; rfl
      · rw [ho.2.1 _ hq]; exact hI i
    have hput : ∀ {k : Kind} {text bad good fs₁ fs₂ r}, k ≠ .old → put (paths m) k text bad good fs₁ = (fs₂, r) →
        I fs₁ → I fs₂ := by
      intro k text bad good fs₁ fs₂ r hk hp hI
      have hst : ∀ x : Chunk, x.kind ≠ .old → fs₂ = store fs₁ (paths m) ((read fs₁ (paths m)).getD [] ++ [x]) → I fs₂ := by
        rintro x hx rfl i
        by_cases hq : pathAt (paths name) i = paths m
        · have := hI i
          rw [hq] at this ⊢
          rw [read_store_self]
          simpa [former, hx] using this
        · rw [read_store_other _ _ hq]; exact hI i
      rcases put_cases hp with ⟨-, rfl, rfl⟩ | ⟨-, -, -, h2⟩ | ⟨-, -, n, -, h2⟩
      · exact hI
      · exact hst _ hk h2
      · exact hst _ (by simp) h2
    have hentry : ∀ (l : Locals) fs₁, I fs₁ →
        After (fun fs' _ => I fs') (fun _ => True) m e ps (turnEntry σ io (paths m) l m e fs₁) := by
      intro l fs₁ hI
      rcases turnEntry_cases σ io (paths m) l m e fs₁ with ⟨text, fs₂, b, hw, hp, heq⟩ |
        ⟨text', fs₂, b, hw, hp, heq⟩ | heq <;> rw [heq]
      · exact ⟨hput (by simp) hp hI, trivial⟩
      · exact hput (by simp) hp hI
      · trivial
    have hheader : ∀ (l : Locals) k fs₁, I fs₁ →
        After (fun fs' _ => I fs') (fun _ => True) m e ps (turnHeader σ io (paths m) l k m e fs₁) := by
      intro l k fs₁ hI
      rcases turnHeader_cases σ io (paths m) l k m e fs₁ with ⟨-, heq⟩ | ⟨text, fs₂, b, -, hk, hw, hp, heq⟩ |
        ⟨text, fs₂, b, -, hk, hw, hp, heq⟩ | ⟨-, -, -, heq⟩ <;> rw [heq]
      · exact hentry l fs₁ hI
      · exact hentry _ _ (hput (by simp) hp hI)
      · exact hput (by simp) hp hI
      · trivial
    have hrot : ∀ {fs₂ b}, rotate io.rotating (paths m) σ.fileRotationLimit fs₁ = (fs₂, b) → I fs₂ := by
      intro fs₂ b hr i
      obtain ⟨source, hc⟩ := rotate_carried hr
      by_cases hn : paths m = paths name
      · rw [hn] at hc
        rw [hc.contents i]
        cases source i with
        | none => rfl
        | some j => exact hI j
      · rw [hc.others _ fun j heq => hn (hsep _ _ _ _ heq).symm]
        exact hI i
    rcases turn_cases σ io (paths m) l m e fs₁ with ⟨hno, ht⟩ | ⟨-, -, fs₂, b, hr, ⟨-, ht⟩ |
        ⟨rfl, fs₃, b', ho, ⟨-, ht⟩ | ⟨rfl, ht⟩⟩⟩ <;> rw [ht]
    · exact hheader _ _ _ hI
    · exact hrot hr
    · exact hopen (openFile_opened ho).1 (hrot hr)
    · exact hheader _ _ _ (hopen (openFile_opened ho).1 (hrot hr))

theorem chain_oldestFirst (fs : Fs) (p : Path) (name n : Nat) :
    chain fs p name n = oldestFirst (fun i => own name (read fs (pathAt p i))) n := by
  induction n with
  | zero => rfl
  | succ n ih => rw [chain, oldestFirst, ih]

theorem oldestFirst_map {α β : Type} (f : α → β) (part : Nat → List α) (n : Nat) :
    (oldestFirst part n).map f = oldestFirst (fun i => (part i).map f) n := by
  induction n with
  | zero => rfl
  | succ n ih => rw [oldestFirst, oldestFirst, List.map_append, ih]

theorem mem_oldestFirst {α : Type} {part : Nat → List α} {n i : Nat} (hi : i ≤ n) {x : α} (hx : x ∈ part i) :
    x ∈ oldestFirst part n := by
  induction n with
  | zero => rw [Nat.le_zero.1 hi] at hx; exact hx
  | succ n ih =>
    rw [oldestFirst, List.mem_append]
    by_cases h : i = n + 1
    · subst h; exact .inl hx
    · exact .inr (ih (by omega))

theorem oldestFirst_congr {α : Type} {a b : Nat → List α} {n : Nat} (h : ∀ i ≤ n, a i = b i) :
    oldestFirst a n = oldestFirst b n := by
  induction n with
  | zero => exact h 0 (Nat.le_refl 0)
  | succ n ih => rw [oldestFirst, oldestFirst, h _ (Nat.le_refl _), ih fun i hi => h i (by omega)]

/-- The default log writer does not fail. -/
theorem fileName_ok (file : List Char) (p k : Nat) : ∃ n, Value.fileNameLoop (file ++ ['\x00']) p k = .ok n := by
  induction file generalizing p k with
  | nil => exact ⟨k, rfl⟩
  | cons c file ih =>
    rw [List.cons_append, Value.fileNameLoop]
    split
    · exact ⟨k, rfl⟩
    · exact ih _ _

theorem logWriter_ok (hide : Bool) (o : LogText.Out) (log : LogText.Record) :
    ∃ o', LogText.logWriter hide o log = .ok o' := by
  unfold LogText.logWriter
  cases hide with
  | true => exact ⟨_, rfl⟩
  | false =>
    obtain ⟨n, hn⟩ := fileName_ok log.file 0 0
    simp only [Value.fileName, hn]
    exact ⟨_, rfl⟩

/-- The text of an entry. -/
def textOf (hide : Bool) (log : LogText.Record) : List Char :=
  match LogText.logWriter hide {} log with
  | .ok o => o.text
  | .error _ => []

theorem initial_writers (hide : Bool) (record : Entry → LogText.Record) :
    Writers (fun e => textOf hide (record e)) (LogRead.headLine hide ++ '\n' :: LogRead.ruleLine hide)
      (initialSettings hide record) := by
  constructor
  · intro e
    obtain ⟨o, h⟩ := logWriter_ok hide {} (record e)
    show defaultLogWriter hide record e = _
    simp only [defaultLogWriter, textOf, h]
  · show defaultHeaderWriter hide = _
    rw [defaultHeaderWriter, LogRead.header_eq]
    rfl

theorem textOf_eq (hide : Bool) {log : LogText.Record} (h : LogReadSpec.Readable log) :
    textOf hide log = LogRead.lineOf hide log := by
  obtain ⟨o, h1, h2, -⟩ := LogRead.logWriter_eq hide {} log h.time.micros h.line h.null
  rw [textOf, h1]
  simpa using h2

/-- What is in the list was said. -/
theorem mem_saidBy {es : List Entry} {e : Entry} (h : e ∈ es) : (e.time, e.level, e.message) ∈ saidBy e.tid es :=
  List.mem_map.2 ⟨e, List.mem_filter.2 ⟨h, by simp⟩, rfl⟩

end Pluto.Log
