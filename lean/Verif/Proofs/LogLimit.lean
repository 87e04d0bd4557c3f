import Verif.Spec.LogLimit
import Verif.Proofs.LogFs
import Verif.Proofs.LogIo

/-! # Lemmas for C161: two loggers that differ in the rotation limit -/

namespace Pluto.Log
open Pluto.Spec.Log

/-- The files with numbers up to `a` are the same. -/
structure Agree (paths : Nat → Path) (a : Nat) (fs fs' : Fs) : Prop where
  dirs : fs'.dirs = fs.dirs
  files : ∀ n i, i ≤ a → read fs' (pathAt (paths n) i) = read fs (pathAt (paths n) i)

theorem agree_main {paths : Nat → Path} {a : Nat} {fs fs' : Fs} (h : Agree paths a fs fs') (n : Nat) :
    read fs' (paths n) = read fs (paths n) := by
  have := h.files n 0 (Nat.zero_le a)
  rwa [pathAt_zero] at this

theorem agree_store {paths : Nat → Path} {a : Nat} {fs fs' : Fs} (h : Agree paths a fs fs') (p : Path) (c : List Chunk) :
    Agree paths a (store fs p c) (store fs' p c) where
  dirs := by rw [dirs_store, dirs_store, h.dirs]
  files n i hi := by
    rw [read_store, read_store]
    split
    · rfl
    · exact h.files n i hi

theorem agree_put {paths : Nat → Path} {a : Nat} {fs fs' : Fs} (h : Agree paths a fs fs') (n : Nat) (k : Kind)
    (text : List Char) (bad : Option Nat) (good : Bool) :
    Agree paths a (put (paths n) k text bad good fs).1 (put (paths n) k text bad good fs').1 ∧
      (put (paths n) k text bad good fs').2 = (put (paths n) k text bad good fs).2 := by
  unfold put
  rw [agree_main h n]
  cases good with
  | false => exact ⟨h, rfl⟩
  | true =>
    cases bad with
    | none => exact ⟨agree_store h _ _, rfl⟩
    | some m => exact ⟨agree_store h _ _, rfl⟩

theorem agree_open {paths : Nat → Path} {a : Nat} {fs fs' : Fs} (h : Agree paths a fs fs') (n : Nat) (fails : Bool) :
    Agree paths a (openFile fails (paths n) fs).1 (openFile fails (paths n) fs').1 ∧
      (openFile fails (paths n) fs').2 = (openFile fails (paths n) fs).2 := by
  unfold openFile
  rw [agree_main h n, h.dirs]
  split
  · exact ⟨h, rfl⟩
  · cases read fs (paths n) with
    | some c => exact ⟨h, rfl⟩
    | none => exact ⟨agree_store h _ _, rfl⟩

theorem agree_size {paths : Nat → Path} {a : Nat} {fs fs' : Fs} (h : Agree paths a fs fs') (n : Nat) (good : Bool) :
    fileSize (paths n) good fs' = fileSize (paths n) good fs := by
  unfold fileSize
  rw [agree_main h n]

theorem agree_rotate {paths : Nat → Path} (hsep : Distinct paths) {a b : Nat} (hab : a ≤ b) {fs fs' : Fs}
    (h : Agree paths a fs fs') (n : Nat) :
    ∃ r r', rotate {} (paths n) a fs = (r, true) ∧ rotate {} (paths n) b fs' = (r', true) ∧ Agree paths a r r' := by
  obtain ⟨k, hk1, hk2⟩ := exists_first fs (paths n)
  obtain ⟨k', hk1', hk2'⟩ := exists_first fs' (paths n)
  obtain ⟨r, h1, h2, h3, h4⟩ := rotate_spec (f := {}) (limit := a) rfl rfl hk1 hk2
  obtain ⟨r', h1', h2', h3', h4'⟩ := rotate_spec (f := {}) (limit := b) rfl rfl hk1' hk2'
  refine ⟨r, r', h1, h1', by rw [h2, h2', h.dirs], fun m i hi => ?_⟩
  by_cases hm : paths m = paths n
  · rw [hm, h4, h4']
    have hkk : ∀ i ≤ a, i ≤ k ↔ i ≤ k' := by
      intro i hi
      constructor
      · intro hik
        by_contra hlt
        have e := h.files n k' (by omega)
        exact hk1 k' (by omega) (e.symm.trans hk2')
      · intro hik
        by_contra hlt
        have e := h.files n k (by omega)
        exact hk1' k (by omega) (e.trans hk2)
    unfold rotated
    split
    · rfl
    · by_cases hik : i ≤ k
      · rw [if_pos ⟨(hkk i hi).1 hik, by omega⟩, if_pos ⟨hik, hi⟩]
        exact h.files n _ (by omega)
      · have hik' : ¬ i ≤ k' := fun hx => hik ((hkk i hi).2 hx)
        rw [if_neg (fun hx => hik' hx.1), if_neg hik', if_neg (fun hx => hik hx.1), if_neg hik]
        exact h.files n i hi
  · have hne : ∀ j, pathAt (paths m) i ≠ pathAt (paths n) j := fun j e => hm (hsep _ _ _ _ e)
    rw [h3 _ hne, h3' _ hne]
    exact h.files m i hi

/-- Two iterations end in the same way. -/
inductive SameEnd (paths : Nat → Path) (a : Nat) : Turn → Turn → Prop
  | next {fs fs' : Fs} (l : Locals) (w : Bool) : Agree paths a fs fs' → SameEnd paths a (.next fs l w) (.next fs' l w)
  | before {fs fs' : Fs} : Agree paths a fs fs' → SameEnd paths a (.before fs) (.before fs')
  | after {fs fs' : Fs} : Agree paths a fs fs' → SameEnd paths a (.after fs) (.after fs')
  | crash : SameEnd paths a .crash .crash

/-- The same settings with another limit. -/
def Settings.limited (σ : Settings) (b : Nat) : Settings := { σ with fileRotationLimit := b }

theorem sameEnd_entry {paths : Nat → Path} {a : Nat} {fs fs' : Fs} (h : Agree paths a fs fs') (σ : Settings) (b : Nat) (io : Io)
    (n : Nat) (l : Locals) (e : Entry) :
    SameEnd paths a (turnEntry σ io (paths n) l n e fs) (turnEntry (σ.limited b) io (paths n) l n e fs') := by
  unfold turnEntry
  rw [show (σ.limited b).logWriter e = σ.logWriter e from rfl]
  cases σ.logWriter e with
  | ok text =>
    obtain ⟨h1, h2⟩ := agree_put h n (.entry n e) (text ++ ['\n']) io.entry l.good
    simp only [h2]
    exact .next _ _ h1
  | fsError text =>
    obtain ⟨h1, h2⟩ := agree_put h n .torn text io.entry l.good
    exact .after h1
  | error => exact .crash

theorem sameEnd_header {paths : Nat → Path} {a : Nat} {fs fs' : Fs} (h : Agree paths a fs fs') (σ : Settings) (b : Nat) (io : Io)
    (n k : Nat) (l : Locals) (e : Entry) :
    SameEnd paths a (turnHeader σ io (paths n) l k n e fs) (turnHeader (σ.limited b) io (paths n) l k n e fs') := by
  unfold turnHeader
  rw [show (σ.limited b).headerWriter = σ.headerWriter from rfl]
  split
  · cases σ.headerWriter with
    | ok text =>
      obtain ⟨h1, h2⟩ := agree_put h n .header (text ++ ['\n']) io.header l.good
      simp only [h2]
      exact sameEnd_entry h1 _ _ _ _ _ _
    | fsError text =>
      obtain ⟨h1, h2⟩ := agree_put h n .torn text io.header l.good
      exact .before h1
    | error => exact .crash
  · exact sameEnd_entry h _ _ _ _ _ _

theorem sameEnd_turn {paths : Nat → Path} (hsep : Distinct paths) {a b : Nat} (hab : a ≤ b) {fs fs' : Fs}
    (h : Agree paths a fs fs') (σ : Settings) (hσ : σ.fileRotationLimit = a) (io : Io) (hio : io.rotating = {})
    (n : Nat) (l : Locals) (e : Entry) :
    SameEnd paths a (turn σ io (paths n) l n e fs) (turn (σ.limited b) io (paths n) l n e fs') := by
  unfold turn
  rw [agree_size h n, hio, hσ, show (σ.limited b).fileRotationLimit = b from rfl]
  split
  · obtain ⟨r, r', h1, h2, h3⟩ := agree_rotate hsep hab h n
    rw [h1, h2]
    obtain ⟨h4, h5⟩ := agree_open h3 n io.opening
    rcases ho : openFile io.opening (paths n) r with ⟨f, x⟩
    rcases ho' : openFile io.opening (paths n) r' with ⟨f', x'⟩
    rw [ho, ho'] at h4 h5
    simp only at h4 h5
    subst h5
    simp only [ho, ho']
    cases x' with
    | true =>
      simp only [agree_size h4 n]
      exact sameEnd_header h4 _ _ _ _ _ _ _
    | false => exact .before h4
  · exact sameEnd_header h _ _ _ _ _ _ _

/-- The loop of the destructor. -/
theorem agree_loop {paths : Nat → Path} (hsep : Distinct paths) {a b : Nat} (hab : a ≤ b) (σ : Settings)
    (hσ : σ.fileRotationLimit = a) (n : Nat) (todo : List Entry) :
    ∀ (l : Locals) (ios : List Io) (fs fs' : Fs), (∀ io ∈ ios, io.rotating = {}) → Agree paths a fs fs' →
      (writeLoop σ (paths n) n l todo ios fs = none ∧ writeLoop (σ.limited b) (paths n) n l todo ios fs' = none) ∨
      ∃ r r' ps, writeLoop σ (paths n) n l todo ios fs = some (r, ps) ∧
        writeLoop (σ.limited b) (paths n) n l todo ios fs' = some (r', ps) ∧ Agree paths a r r' := by
  induction todo with
  | nil => intro l ios fs fs' _ h; exact .inr ⟨fs, fs', [], rfl, rfl, h⟩
  | cons e todo ih =>
    intro l ios fs fs' hios h
    have hio : (ios.headD {}).rotating = {} := by
      cases ios with
      | nil => rfl
      | cons x xs => exact hios x List.mem_cons_self
    have ht := sameEnd_turn hsep hab h σ hσ (ios.headD {}) hio n l e
    simp only [writeLoop]
    generalize turn σ (ios.headD {}) (paths n) l n e fs = x at ht
    generalize turn (σ.limited b) (ios.headD {}) (paths n) l n e fs' = y at ht
    cases ht with
    | next l' w h' =>
      simp only
      rcases ih l' ios.tail _ _ (fun io hm => hios io (List.mem_of_mem_tail hm)) h' with ⟨h1, h2⟩ | ⟨r, r', ps, h1, h2, h3⟩
      · exact .inl (by rw [h1, h2]; exact ⟨rfl, rfl⟩)
      · exact .inr ⟨r, r', _, by rw [h1], by rw [h2], h3⟩
    | before h' => exact .inr ⟨_, _, _, rfl, rfl, h'⟩
    | after h' => exact .inr ⟨_, _, _, rfl, rfl, h'⟩
    | crash => exact .inl ⟨rfl, rfl⟩

theorem agree_prepare {paths : Nat → Path} {a : Nat} {fs fs' : Fs} (h : Agree paths a fs fs') (σ : Settings) (b : Nat) (io : Io)
    (n : Nat) {f : LogFile} (hf : Known (paths n) f) :
    (prepare (σ.limited b) io (paths n) f fs').1 = (prepare σ io (paths n) f fs).1 ∧
      Agree paths a (prepare σ io (paths n) f fs).2.1 (prepare (σ.limited b) io (paths n) f fs').2.1 ∧
      (prepare (σ.limited b) io (paths n) f fs').2.2 = (prepare σ io (paths n) f fs).2.2 := by
  have hg : f.filePath.getD (paths n) = paths n := by
    rcases hf with hf | hf <;> rw [hf] <;> rfl
  have key : ∀ (f : LogFile) (fs fs' : Fs), Agree paths a fs fs' →
      (match openFile io.opening (paths n) fs' with
        | (fs, true) => (f, fs, some (⟨σ.writeHeader, σ.fileRotationSize, true⟩ : Locals))
        | (fs, false) => (f, fs, none)).1 =
      (match openFile io.opening (paths n) fs with
        | (fs, true) => (f, fs, some (⟨σ.writeHeader, σ.fileRotationSize, true⟩ : Locals))
        | (fs, false) => (f, fs, none)).1 ∧
      Agree paths a (match openFile io.opening (paths n) fs with
        | (fs, true) => (f, fs, some (⟨σ.writeHeader, σ.fileRotationSize, true⟩ : Locals))
        | (fs, false) => (f, fs, none)).2.1
        (match openFile io.opening (paths n) fs' with
        | (fs, true) => (f, fs, some (⟨σ.writeHeader, σ.fileRotationSize, true⟩ : Locals))
        | (fs, false) => (f, fs, none)).2.1 ∧
      (match openFile io.opening (paths n) fs' with
        | (fs, true) => (f, fs, some (⟨σ.writeHeader, σ.fileRotationSize, true⟩ : Locals))
        | (fs, false) => (f, fs, none)).2.2 =
      (match openFile io.opening (paths n) fs with
        | (fs, true) => (f, fs, some (⟨σ.writeHeader, σ.fileRotationSize, true⟩ : Locals))
        | (fs, false) => (f, fs, none)).2.2 := by
    intro f fs fs' h
    obtain ⟨h4, h5⟩ := agree_open h n io.opening
    rcases ho : openFile io.opening (paths n) fs with ⟨g, x⟩
    rcases ho' : openFile io.opening (paths n) fs' with ⟨g', x'⟩
    rw [ho, ho'] at h4 h5
    simp only at h4 h5
    subst h5
    cases x' <;> exact ⟨rfl, h4, rfl⟩
  unfold prepare
  simp only [Settings.limited, hg, Option.getD_some]
  by_cases c1 : f.filePath.isNone ∧ io.prepare = true
  · rw [if_pos c1, if_pos c1]
    exact ⟨rfl, h, rfl⟩
  rw [if_neg c1, if_neg c1]
  by_cases c2 : σ.createDirs = true ∧ f.dirsCreated = false ∧ io.prepare = true
  · rw [if_pos c2, if_pos c2]
    exact ⟨rfl, h, rfl⟩
  rw [if_neg c2, if_neg c2]
  by_cases c3 : σ.createDirs = true ∧ f.dirsCreated = false
  · rw [if_pos c3, if_pos c3]
    exact key _ _ _ ⟨by rw [h.dirs], fun m i hi => h.files m i hi⟩
  · rw [if_neg c3, if_neg c3]
    exact key _ _ _ h

/-- The same state with another limit and another file system. -/
def State.limited (s : State) (b : Nat) (fs : Fs) : State := { s with settings := s.settings.limited b, fs := fs }

theorem agree_step {paths : Nat → Path} (hsep : Distinct paths) {a b : Nat} (hab : a ≤ b) {σ : Settings} {fs₀ fs' : Fs}
    {s s₁ : State} {ev : Event} (hr : Reachable paths σ fs₀ s) (hσ : s.settings.fileRotationLimit = a) (hev : Steady ev)
    (h : Agree paths a s.fs fs') (hs : step paths s ev = some s₁) :
    s₁.settings.fileRotationLimit = a ∧
      ∃ fs₁, Agree paths a s₁.fs fs₁ ∧ step paths (s.limited b fs') ev = some (s₁.limited b fs₁) := by
  have hb := base hr
  have hp := pathsOk hr
  have hset : s₁.settings.fileRotationLimit = a := by
    rw [settings_step hs]
    cases ev with
    | set x => cases x <;> first | exact hσ | exact hev.elim
    | _ => exact hσ
  refine ⟨hset, ?_⟩
  clear hset
  unfold step at hs ⊢
  rw [show (s.limited b fs').crashed = s.crashed from rfl]
  split at hs
  · cases hs
  rename_i hcr
  rw [if_neg hcr]
  cases ev with
  | thread io =>
    simp only [Steady] at hev
    simp only [threadStep] at hs ⊢
    rw [show (s.limited b fs').thread = s.thread from rfl]
    cases ht : s.thread with
    | opening name todo =>
      rw [ht] at hs
      simp only at hs ⊢
      have hsome : (find s.files name).isSome := by have := hb.range; rw [ht] at this; exact this.1
      obtain ⟨f₀, hf₀⟩ := Option.isSome_iff_exists.1 hsome
      have hk := hp.known name f₀ hf₀
      obtain ⟨h1, h2, h3⟩ := agree_prepare h s.settings b io name hk
      rw [show (s.limited b fs').settings = s.settings.limited b from rfl, show (s.limited b fs').files = s.files from rfl,
        show (s.limited b fs').fs = fs' from rfl]
      rw [hf₀, Option.getD_some] at hs ⊢
      rcases hq : prepare s.settings io (paths name) f₀ s.fs with ⟨f, g, o⟩
      rcases hq' : prepare (s.settings.limited b) io (paths name) f₀ fs' with ⟨f', g', o'⟩
      rw [hq, hq'] at h1 h2 h3
      rw [hq] at hs
      simp only at h1 h2 h3 hs ⊢
      subst h1 h3
      cases o' with
      | some l => cases hs; exact ⟨g', h2, rfl⟩
      | none => cases hs; exact ⟨g', h2, rfl⟩
    | writing name p l todo done =>
      rw [ht] at hs
      have hpp := hp.writing _ _ _ _ _ ht
      subst hpp
      simp only at hs ⊢
      cases todo with
      | nil => cases hs; exact ⟨fs', h, rfl⟩
      | cons e todo =>
        have hal := sameEnd_turn hsep hab h s.settings hσ io hev name l e
        rw [show (s.limited b fs').settings = s.settings.limited b from rfl, show (s.limited b fs').fs = fs' from rfl]
        simp only at hs ⊢
        generalize turn s.settings io (paths name) l name e s.fs = x at hal hs
        generalize turn (s.settings.limited b) io (paths name) l name e fs' = y at hal
        cases hal with
        | next l' w h' => cases hs; exact ⟨_, h', rfl⟩
        | before h' => cases hs; exact ⟨_, h', rfl⟩
        | after h' => cases hs; exact ⟨_, h', rfl⟩
        | crash => cases hs; exact ⟨_, h, rfl⟩
    | _ =>
      rw [ht] at hs
      simp only at hs ⊢
      revert hs
      simp only [State.limited, Settings.limited]
      (repeat' split) <;> intro hs <;> cases hs <;> refine ⟨fs', h, ?_⟩ <;> first | rfl | simp [*]
  | flush io ios =>
    simp only [Steady] at hev
    simp only at hs ⊢
    rw [show (s.limited b fs').stage = s.stage from rfl, show (s.limited b fs').files = s.files from rfl]
    cases hst : s.stage with
    | flushing last =>
      rw [hst] at hs
      simp only at hs ⊢
      cases hn : next s.files last with
      | none => rw [hn] at hs; cases hs
      | some x =>
        obtain ⟨name, f⟩ := x
        rw [hn] at hs
        simp only at hs ⊢
        cases hs
        have hk := hp.known name f (next_some hb.sorted hn).1
        unfold flushFile
        rw [show (s.limited b fs').settings = s.settings.limited b from rfl, show (s.limited b fs').fs = fs' from rfl]
        split
        · obtain ⟨h1, h2, h3⟩ := agree_prepare h s.settings b io name hk
          rcases hq : prepare s.settings io (paths name) f s.fs with ⟨f₂, g, o⟩
          rcases hq' : prepare (s.settings.limited b) io (paths name) f fs' with ⟨f', g', o'⟩
          obtain ⟨-, -, -, h7⟩ := prepare_cases hk hq
          rw [hq, hq'] at h1 h2 h3
          simp only at h1 h2 h3 ⊢
          subst h1 h3
          cases o' with
          | none => exact ⟨g', h2, rfl⟩
          | some l =>
            simp only
            rw [(h7 l rfl).1, Option.getD_some]
            rcases agree_loop hsep hab s.settings hσ name f'.buffer.reverse l ios g g' hev h2 with
              ⟨h8, h9⟩ | ⟨r, r', ps, h8, h9, h10⟩
            · rw [h8, h9]; exact ⟨fs', h, rfl⟩
            · rw [h8, h9]; exact ⟨r', h10, rfl⟩
        · exact ⟨fs', h, rfl⟩
    | _ => rw [hst] at hs; cases hs
  | set x =>
    cases x with
    | fileRotationLimit m => exact hev.elim
    | _ =>
      revert hs
      simp only [State.limited, Settings.limited, Settings.set]
      split
      · rename_i hal
        intro hs
        cases hs
        exact ⟨fs', h, if_pos hal⟩
      · intro hs
        cases hs
  | enter i =>
    revert hs
    simp only [State.limited, Settings.limited, addLog]
    (repeat' split) <;> intro hs <;> cases hs <;> refine ⟨fs', h, ?_⟩ <;> first | rfl | simp [*]
  | _ =>
    revert hs
    simp only [State.limited, Settings.limited]
    (repeat' split) <;> intro hs <;> cases hs <;> refine ⟨fs', h, ?_⟩ <;> first | rfl | simp [*]

theorem agree_run {paths : Nat → Path} (hsep : Distinct paths) {a b : Nat} (hab : a ≤ b) {σ : Settings} {fs₀ : Fs}
    {evs : List Event} : ∀ {s s₁ : State} {fs' : Fs}, Reachable paths σ fs₀ s → s.settings.fileRotationLimit = a →
    (∀ ev ∈ evs, Steady ev) → Agree paths a s.fs fs' → run paths s evs = some s₁ →
      ∃ fs₁, Agree paths a s₁.fs fs₁ ∧ run paths (s.limited b fs') evs = some (s₁.limited b fs₁) := by
  induction evs with
  | nil => intro s s₁ fs' _ _ _ h hr; cases hr; exact ⟨fs', h, rfl⟩
  | cons ev evs ih =>
    intro s s₁ fs' hre hσ hev h hr
    simp only [run] at hr ⊢
    cases hs : step paths s ev with
    | none => rw [hs] at hr; cases hr
    | some s₂ =>
      rw [hs] at hr
      obtain ⟨h1, fs₂, h2, h3⟩ := agree_step hsep hab hre hσ (hev ev List.mem_cons_self) h hs
      rw [h3]
      exact ih (.step ev hre hs) h1 (fun e he => hev e (List.mem_cons_of_mem _ he)) h2 hr

theorem chain_suffix {paths : Nat → Path} {a b : Nat} (hab : a ≤ b) {fs fs' : Fs} (h : Agree paths a fs fs') (n : Nat) :
    chain fs (paths n) n a <:+ chain fs' (paths n) n b := by
  have h1 : ∀ k ≤ a, chain fs' (paths n) n k = chain fs (paths n) n k := by
    intro k
    induction k with
    | zero => intro hk; rw [chain, chain, h.files n 0 hk]
    | succ k ih => intro hk; rw [chain, chain, h.files n _ hk, ih (by omega)]
  rw [← h1 a (Nat.le_refl a)]
  obtain ⟨d, rfl⟩ := Nat.exists_eq_add_of_le hab
  clear hab h1
  induction d with
  | zero => exact List.suffix_refl _
  | succ d ih =>
    rw [← Nat.add_assoc, chain]
    exact ih.trans (List.suffix_append _ _)

end Pluto.Log
